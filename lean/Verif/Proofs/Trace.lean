import Mathlib.Data.List.TakeWhile
import Verif.Proofs.Ingest
import Verif.Proofs.Zones
import Verif.Proofs.Separate

/-
Lemmas about whole traces: zones, identifiers and the result of a conversion.
-/

namespace NPE
open Spec Out

/-! ### Zones of cores -/

theorem deref_ok {α : Type} {o : Option α} {a : α} (h : deref o = .ok a) : o = some a := by
  cases o with
  | none => exact absurd h nofun
  | some b => rw [← Out.ok.inj h]

theorem add_lookup (m : ZoneMap) (k c : Coord × RiscType) (z : Zone) :
    (m.add k z).lookup c = if c = k then some (((m.lookup k).getD []) ++ [z]) else m.lookup c := by
  induction m with
  | nil =>
    unfold ZoneMap.add
    by_cases h : c = k
    · simp [h]
    · simp only [List.lookup_cons, List.lookup_nil, if_neg h, beq_eq_false_iff_ne.mpr h]
  | cons a m ih =>
    unfold ZoneMap.add
    by_cases ha : a.1 = k
    · rw [if_pos ha]
      by_cases h : c = k
      · subst h
        rw [if_pos rfl, List.lookup_cons, List.lookup_cons, ha]
        simp
      · have hca : ¬ c = a.1 := fun x => h (x.trans ha)
        rw [if_neg h, List.lookup_cons, List.lookup_cons, beq_eq_false_iff_ne.mpr h, beq_eq_false_iff_ne.mpr hca]
    · rw [if_neg ha, List.lookup_cons, List.lookup_cons, ih, List.lookup_cons]
      by_cases hca : c = a.1
      · have : ¬ c = k := fun x => ha (hca ▸ x)
        simp [hca, ha]
      · have hka : ¬ k = a.1 := fun x => ha x.symm
        simp [beq_eq_false_iff_ne.mpr hca, beq_eq_false_iff_ne.mpr hka]

theorem zonePhase_empty : zonePhase? "" = none := by decide

theorem riscType_empty : riscType? "" = none := by decide

/-- The zones of every core, in the order of the trace. -/
theorem extractZones_lookup {t0 : Int} {evs : List Json} {zones : ZoneMap}
    (h : foldlM (zoneEvent t0) [] evs = .ok zones) (c : Coord × RiscType) :
    zones.lookup c = if Trace.zonesOf evs t0 c = [] then none else some (Trace.zonesOf evs t0 c) := by
  revert c
  refine foldlM_prefix (P := fun pre m => ∀ c, m.lookup c =
    if Trace.zonesOf pre t0 c = [] then none else some (Trace.zonesOf pre t0 c)) (fun c => rfl) ?_ h
  intro pre e m m' _ ih hm c
  have hz : Trace.zonesOf (pre ++ [e]) t0 c = Trace.zonesOf pre t0 c ++ (Trace.zoneOf t0 c e).toList := by
    unfold Trace.zonesOf
    rw [List.filterMap_append]
    cases hze : Trace.zoneOf t0 c e <;> simp [hze]
  unfold zoneEvent at hm
  simp only at hm
  by_cases hc : e.strD "proc" ≠ "" ∧ e.intD "sx" (-1) ≠ -1 ∧ e.intD "sy" (-1) ≠ -1 ∧ e.strD "zone" ≠ "" ∧
      e.strD "zone_phase" ≠ ""
  · rw [if_pos hc, bind_eq_ok] at hm
    obtain ⟨r, hr, hm⟩ := hm
    rw [bind_eq_ok] at hm
    obtain ⟨p, hp, hm⟩ := hm
    replace hr := deref_ok hr
    replace hp := deref_ok hp
    rw [← Out.ok.inj hm, add_lookup, mkCoord_eq]
    have hcore : Trace.core e = some (Trace.coord (Trace.chip e) (e.intD "sy" (-1)) (e.intD "sx" (-1)), r) := by
      unfold Trace.core; rw [hr]; rfl
    have hof : Trace.zoneOf t0 c e = if c = (Trace.coord (Trace.chip e) (e.intD "sy" (-1)) (e.intD "sx" (-1)), r)
        then some ⟨Trace.time e - t0, e.strD "zone", p⟩ else none := by
      unfold Trace.zoneOf
      rw [hp]
      simp only [hcore]
      by_cases hk : c = (Trace.coord (Trace.chip e) (e.intD "sy" (-1)) (e.intD "sx" (-1)), r)
      · rw [if_pos hk, if_pos ⟨hc.2.1, hc.2.2.1, hc.2.2.2.1, by rw [hk]⟩]
      · rw [if_neg hk, if_neg (fun x => hk (Option.some.inj x.2.2.2).symm)]
    rw [hz, hof]
    change (if c = (Trace.coord (Trace.chip e) (e.intD "sy" (-1)) (e.intD "sx" (-1)), r) then
      some ((m.lookup (Trace.coord (Trace.chip e) (e.intD "sy" (-1)) (e.intD "sx" (-1)), r)).getD [] ++ _) else _) = _
    by_cases hk : c = (Trace.coord (Trace.chip e) (e.intD "sy" (-1)) (e.intD "sx" (-1)), r)
    · rw [if_pos hk, if_pos hk]
      rw [if_neg (by simp), ← hk, ih c]
      by_cases hn : Trace.zonesOf pre t0 c = []
      · rw [if_pos hn, hn]; rfl
      · rw [if_neg hn]; rfl
    · rw [if_neg hk, if_neg hk, ih c]
      simp
  · rw [if_neg hc] at hm
    rw [← Out.ok.inj hm, hz]
    have hof : Trace.zoneOf t0 c e = none := by
      unfold Trace.zoneOf
      cases hp : zonePhase? (e.strD "zone_phase") with
      | none => rfl
      | some p =>
        simp only
        rw [if_neg]
        rintro ⟨h1, h2, h3, h4⟩
        apply hc
        refine ⟨fun x => ?_, h1, h2, h3, fun x => ?_⟩
        · unfold Trace.core at h4
          rw [x, riscType_empty] at h4
          exact absurd h4 nofun
        · rw [x, zonePhase_empty] at hp
          exact absurd hp nofun
    rw [hof, ih c]
    simp

/-! ### The zone iterator of the conversion -/

theorem advance_ok {l : List Zone} {t : Int} : ∀ {fuel : Nat} {it it' : ZoneIter},
    it.idx ≤ (l.takeWhile fun z => z.timestamp ≤ t).length → walk l it.idx = .ok it →
    it.advance l t fuel = .ok it' →
    it'.idx = (l.takeWhile fun z => z.timestamp ≤ t).length ∧ walk l it'.idx = .ok it' := by
  intro fuel
  induction fuel with
  | zero => intro it it' _ _ h; exact absurd h nofun
  | succ n ih =>
    intro it it' hle hw h
    have hlen : (l.takeWhile fun z => z.timestamp ≤ t).length ≤ l.length :=
      (List.takeWhile_prefix _).length_le
    unfold ZoneIter.advance at h
    by_cases he : it.isEnd l = true
    · rw [if_pos he] at h
      rw [← Out.ok.inj h]
      have : it.idx = l.length := by unfold ZoneIter.isEnd at he; simpa using he
      exact ⟨by omega, hw⟩
    rw [if_neg he] at h
    cases hz : l[it.idx]? with
    | none => rw [hz] at h; exact absurd h nofun
    | some z =>
      rw [hz] at h
      simp only at h
      have hlt : it.idx < l.length := by
        rw [List.getElem?_eq_some_iff] at hz
        exact hz.1
      have hsplit : l = l.take it.idx ++ z :: l.drop (it.idx + 1) := by
        have := (List.getElem?_eq_some_iff.mp hz).2
        rw [← this, List.cons_getElem_drop_succ, List.take_append_drop]
      have hall : ∀ x ∈ l.take it.idx, (decide (x.timestamp ≤ t)) = true := by
        intro x hx
        have hpre : l.take it.idx <+: l.takeWhile fun z => z.timestamp ≤ t :=
          List.prefix_of_prefix_length_le (List.take_prefix _ _) (List.takeWhile_prefix _)
            (by rw [List.length_take]; omega)
        exact List.mem_takeWhile_imp (p := fun z : Zone => decide (z.timestamp ≤ t)) (hpre.subset hx)
      by_cases hts : z.timestamp ≤ t
      · rw [if_pos hts, bind_eq_ok] at h
        obtain ⟨it1, h1, h2⟩ := h
        have hw1 : walk l (it.idx + 1) = .ok it1 := by
          change (walk l it.idx >>= fun it => it.next l) = .ok it1
          rw [hw]; exact h1
        have hi1 : it1.idx = it.idx + 1 := (walked _ _ (by omega) hw1).idx
        refine ih ?_ ?_ h2
        · rw [hi1]
          conv_rhs => rw [hsplit]
          rw [List.takeWhile_append_of_pos hall, List.takeWhile_cons_of_pos (by simpa using hts)]
          rw [List.length_append, List.length_take, List.length_cons]
          omega
        · rw [hi1]; exact hw1
      · rw [if_neg hts] at h
        rw [← Out.ok.inj h]
        refine ⟨?_, hw⟩
        have : (l.takeWhile fun z => z.timestamp ≤ t).length = (l.take it.idx).length := by
          conv_lhs => rw [hsplit]
          rw [List.takeWhile_append_of_pos hall, List.takeWhile_cons_of_neg (by simpa using hts), List.append_nil]
        rw [this, List.length_take]
        omega

theorem takeWhile_length_mono {l : List Zone} {t t' : Int} (h : t ≤ t') :
    (l.takeWhile fun z => z.timestamp ≤ t).length ≤ (l.takeWhile fun z => z.timestamp ≤ t').length := by
  induction l with
  | nil => simp
  | cons a l ih =>
    rw [List.takeWhile_cons, List.takeWhile_cons]
    by_cases ha : a.timestamp ≤ t
    · rw [if_pos (by simpa using ha), if_pos (by simp; omega), List.length_cons, List.length_cons]
      omega
    · rw [if_neg (by simpa using ha)]
      simp

theorem takeWhile_eq_filter {l : List Zone} (h : l.Pairwise fun a b => a.timestamp ≤ b.timestamp) (t : Int) :
    l.takeWhile (fun z => z.timestamp ≤ t) = l.filter fun z => z.timestamp ≤ t := by
  induction l with
  | nil => rfl
  | cons a l ih =>
    rw [List.pairwise_cons] at h
    rw [List.takeWhile_cons, List.filter_cons]
    by_cases ha : a.timestamp ≤ t
    · rw [if_pos (by simpa using ha), if_pos (by simpa using ha), ih h.2]
    · rw [if_neg (by simpa using ha), if_neg (by simpa using ha)]
      symm
      rw [List.filter_eq_nil_iff]
      intro x hx
      have := h.1 x hx
      simp; omega

theorem zoneOf_some {t0 : Int} {c : Coord × RiscType} {e : Json} {z : Zone} (h : Trace.zoneOf t0 c e = some z) :
    Trace.core e = some c ∧ z.timestamp = Trace.time e - t0 := by
  unfold Trace.zoneOf at h
  cases hp : zonePhase? (e.strD "zone_phase") with
  | none => rw [hp] at h; exact absurd h nofun
  | some p =>
    rw [hp] at h
    simp only at h
    split at h
    · rename_i hc
      rw [← Option.some.inj h]
      exact ⟨hc.2.2.2, rfl⟩
    · exact absurd h nofun

theorem zonesOf_sorted {evs : List Json} (h : Trace.InOrder evs) (t0 : Int) (c : Coord × RiscType) :
    (Trace.zonesOf evs t0 c).Pairwise fun a b => a.timestamp ≤ b.timestamp := by
  unfold Trace.zonesOf
  rw [List.pairwise_filterMap]
  refine List.Pairwise.imp ?_ h
  intro e e' hee z hz z' hz'
  obtain ⟨h1, h2⟩ := zoneOf_some hz
  obtain ⟨h3, h4⟩ := zoneOf_some hz'
  have := hee (h1.trans h3.symm)
  omega

/-- The iterator after some events is in the list of the core of an earlier event, not beyond the time of
that event. -/
def ZoneInv (t0 : Int) (zones : ZoneMap) (pre : List Json) (s : ConvState) : Prop :=
  ∀ l it, s.zit = some (l, it) → zones.lookup s.prev = some l ∧ walk l it.idx = .ok it ∧
    ∃ e ∈ pre, Trace.core e = some s.prev ∧ it.idx ≤ (l.takeWhile fun z => z.timestamp ≤ Trace.time e - t0).length

theorem zoneStep_proc {t0 : Int} {zones : ZoneMap} {s : ConvState} {e : Json} {r : ConvState × String}
    (h : zoneStep t0 zones s e = .ok r) : e.strD "proc" ≠ "" ∧ r.1.transfers = s.transfers ∧ r.1.groups = s.groups ∧
      r.1.rd = s.rd ∧ r.1.wr = s.wr := by
  unfold zoneStep at h
  rw [bind_eq_ok] at h
  obtain ⟨rt, hr, h⟩ := h
  rw [bind_eq_ok] at h
  obtain ⟨p, hp, h⟩ := h
  rw [bind_eq_ok] at h
  obtain ⟨it, hit, h⟩ := h
  rw [← Out.ok.inj h]
  refine ⟨fun x => ?_, rfl, rfl, rfl, rfl⟩
  have := deref_ok hr
  rw [x, riscType_empty] at this
  exact absurd this nofun

theorem zoneStep_path {t0 : Int} {zones : ZoneMap} {evs pre : List Json} {s : ConvState} {e : Json}
    {r : ConvState × String}
    (hz : ∀ c, zones.lookup c = if Trace.zonesOf evs t0 c = [] then none else some (Trace.zonesOf evs t0 c))
    (hord : Trace.InOrder evs) (hpre : pre ++ [e] <+: evs) (hs : ZoneInv t0 zones pre s)
    (h : zoneStep t0 zones s e = .ok r) :
    ZoneInv t0 zones (pre ++ [e]) r.1 ∧
    ∀ c, Trace.core e = some c → Trace.zonesOf evs t0 c ≠ [] → Trace.ZonePath evs t0 c e r.2 := by
  unfold zoneStep at h
  rw [bind_eq_ok] at h
  obtain ⟨rt, hr, h⟩ := h
  rw [bind_eq_ok] at h
  obtain ⟨p, hp, h⟩ := h
  rw [bind_eq_ok] at h
  obtain ⟨it, hit, h⟩ := h
  replace hr := deref_ok hr
  replace hit := deref_ok hit
  rw [← Out.ok.inj h]
  have hcore : Trace.core e = some (Trace.coord (Trace.chip e) (e.intD "sy" (-1)) (e.intD "sx" (-1)), rt) := by
    unfold Trace.core; rw [hr]; rfl
  rw [mkCoord_eq] at hp
  change zoneIterFor zones (Trace.coord (Trace.chip e) (e.intD "sy" (-1)) (e.intD "sx" (-1)), rt) (Trace.time e - t0) s = _ at hp
  generalize (Trace.coord (Trace.chip e) (e.intD "sy" (-1)) (e.intD "sx" (-1)), rt) = c at hp hcore
  unfold zoneIterFor at hp
  cases hl : zones.lookup c with
  | none =>
    rw [hl] at hp
    simp only at hp
    have hpe := (Out.ok.inj hp).symm
    constructor
    · intro l it' hlit
      simp only [hpe] at hlit ⊢
      obtain ⟨h1, h2, e', he', h3⟩ := hs l it' hlit
      exact ⟨h1, h2, e', by simp [he'], h3⟩
    · intro c' hc' hne
      rw [hcore] at hc'
      rw [← Option.some.inj hc'] at hne
      rw [hz c, if_neg hne] at hl
      exact absurd hl nofun
  | some zs =>
    rw [hl] at hp
    simp only at hp
    have hzs : zs = Trace.zonesOf evs t0 c := by
      have := hz c
      rw [hl] at this
      split at this
      · exact absurd this nofun
      · exact Option.some.inj this
    obtain ⟨it0, hst, hi0, hw0⟩ : ∃ it0, (if c ≠ s.prev then some (zs, ZoneIter.init) else s.zit) = some (zs, it0) ∧
        it0.idx ≤ (zs.takeWhile fun z => z.timestamp ≤ Trace.time e - t0).length ∧ walk zs it0.idx = .ok it0 := by
      by_cases hc : c = s.prev
      · rw [if_neg (by simpa using hc)] at hp ⊢
        cases hzit : s.zit with
        | none => rw [hzit] at hp; exact absurd hp nofun
        | some q =>
          obtain ⟨l, i⟩ := q
          obtain ⟨h1, h2, e', he', h3, h4⟩ := hs l i hzit
          rw [← hc, hl] at h1
          have hll := Option.some.inj h1
          subst hll
          refine ⟨i, rfl, ?_, h2⟩
          have hle : Trace.time e' ≤ Trace.time e := by
            have hp2 : (pre ++ [e]).Pairwise fun e e' => Trace.core e = Trace.core e' → Trace.time e ≤ Trace.time e' :=
              List.Pairwise.sublist hpre.sublist hord
            rw [List.pairwise_append] at hp2
            exact hp2.2.2 e' he' e (by simp) (by rw [h3, hcore, hc])
          exact h4.trans (takeWhile_length_mono (by omega))
      · rw [if_pos hc]
        exact ⟨.init, rfl, Nat.zero_le _, rfl⟩
    rw [hst] at hp
    simp only at hp
    cases hadv : it0.advance zs (Trace.time e - t0) (zs.length - it0.idx + 1) with
    | ok it1 =>
      rw [hadv] at hp
      simp only at hp
      have hpe := (Out.ok.inj hp).symm
      obtain ⟨hi1, hw1⟩ := advance_ok hi0 hw0 hadv
      constructor
      · intro l it' hlit
        simp only [hpe] at hlit ⊢
        have := Option.some.inj hlit
        rw [Prod.mk.injEq] at this
        rw [← this.1, ← this.2]
        exact ⟨hl, hw1, e, by simp, hcore, hi1.le⟩
      · intro c' hc' hne
        rw [hcore] at hc'
        rw [← Option.some.inj hc']
        rw [hpe] at hit
        have := (Option.some.inj hit).symm
        have hlen : it1.idx ≤ zs.length := by
          rw [hi1]; exact (List.takeWhile_prefix _).length_le
        refine ⟨it1.stack, ?_, by rw [this]; rfl⟩
        have hop := (walked it1.idx it1 hlen hw1).stack
        rw [hi1] at hop
        rw [← hzs, ← takeWhile_eq_filter (by rw [hzs]; exact zonesOf_sorted hord t0 c)]
        rwa [← List.prefix_iff_eq_take.mp (List.takeWhile_prefix _)] at hop
    | exc x => rw [hadv] at hp; exact absurd hp nofun
    | std x => rw [hadv] at hp; exact absurd hp nofun
    | exit => rw [hadv] at hp; exact absurd hp nofun
    | ub => rw [hadv] at hp; exact absurd hp nofun
    | diverge => rw [hadv] at hp; exact absurd hp nofun

/-! ### Zone paths of the new transfers -/

/-- The transfers after a step: the old ones and new ones with the given zone path. -/
def Extends (zp : String) (old new : List Transfer) : Prop :=
  ∃ l, new = old ++ l ∧ ∀ t ∈ l, t.zonePath = zp

theorem Extends.refl (zp : String) (l : List Transfer) : Extends zp l l := ⟨[], by simp, by simp⟩

theorem Extends.trans {zp : String} {a b c : List Transfer} (h : Extends zp a b) (h' : Extends zp b c) :
    Extends zp a c := by
  obtain ⟨l, hl, h1⟩ := h
  obtain ⟨l', hl', h2⟩ := h'
  refine ⟨l ++ l', by rw [hl', hl, List.append_assoc], ?_⟩
  intro t ht
  rcases List.mem_append.mp ht with ht | ht
  · exact h1 t ht
  · exact h2 t ht

theorem push_extends (ev : FabEvent) (n : Noc) (a b : Coord) (x y : Int) (s : FabState) :
    Extends ev.zonePath s.transfers (s.push ev n a b x y).transfers :=
  ⟨_, rfl, by intro t ht; rw [List.mem_singleton.mp ht]; rfl⟩

theorem localWrites_extends (ev : FabEvent) (n : Noc) (d : Int) (a : Coord) (x : Int) (ws : List Json) :
    ∀ s : FabState, Extends ev.zonePath s.transfers (ws.foldl (localWrite ev n d a x) s).transfers := by
  induction ws with
  | nil => intro s; exact Extends.refl _ _
  | cons w ws ih =>
    intro s
    rw [List.foldl_cons]
    refine Extends.trans ?_ (ih _)
    unfold localWrite
    simp only
    split
    · exact push_extends ..
    · exact Extends.refl _ _

theorem fabricRoute_extends {ev : FabEvent} {s s' : FabState} {r : Json} (h : fabricRoute ev s r = .ok s') :
    Extends ev.zonePath s.transfers s'.transfers := by
  unfold fabricRoute at h
  rw [bind_eq_ok] at h
  obtain ⟨s1, h1, h⟩ := h
  have e1 : s1.transfers = s.transfers := by
    unfold fabricLatency at h1
    split at h1
    · split at h1
      · rw [← Out.ok.inj h1]
      · exact absurd h1 nofun
    · rw [← Out.ok.inj h1]
  rw [← Out.ok.inj h, ← e1]
  unfold fabricMoves
  simp only
  split
  · exact Extends.refl _ _
  · split
    · exact (localWrites_extends ..).trans (push_extends ..)
    · exact localWrites_extends ..

theorem convBody_extends {arch : Arch} {t0 : Int} {zp : String} {s s' : ConvState} {e : Json}
    (h : convBody arch t0 zp s e = .ok s') :
    Extends zp s.transfers s'.transfers ∧ s'.prev = s.prev ∧ s'.zit = s.zit := by
  unfold convBody at h
  split at h
  · rw [← Out.ok.inj h]; exact ⟨Extends.refl _ _, rfl, rfl⟩
  split at h
  · rw [← Out.ok.inj h]
    unfold saveState
    simp only
    split
    · exact ⟨Extends.refl _ _, rfl, rfl⟩
    · split <;> exact ⟨Extends.refl _ _, rfl, rfl⟩
  rw [bind_eq_ok] at h
  obtain ⟨p, hp, h⟩ := h
  cases p with
  | none =>
    simp only at h
    rw [← Out.ok.inj h]; exact ⟨Extends.refl _ _, rfl, rfl⟩
  | some p =>
    simp only at h
    split at h
    · unfold fabricEvent at h
      split at h
      · rw [← Out.ok.inj h]; exact ⟨Extends.refl _ _, rfl, rfl⟩
      · rw [bind_eq_ok] at h
        obtain ⟨fs, hfs, h⟩ := h
        rw [← Out.ok.inj h]
        refine ⟨?_, rfl, rfl⟩
        exact foldlM_prefix (P := fun _ fs : _ => Extends zp s.transfers (FabState.transfers fs)) (Extends.refl _ _)
          (fun _ _ _ _ _ ih hx => ih.trans (fabricRoute_extends hx)) hfs
    · rw [← Out.ok.inj h]
      exact ⟨⟨_, rfl, by intro t ht; rw [List.mem_singleton.mp ht]; rfl⟩, rfl, rfl⟩

/-! ### Whole traces -/

theorem assignIds_map {β : Type} (f : Transfer → β) (hf : ∀ t (p i : Int), f { t with phaseId := p, id := i } = f t)
    (ts : List Transfer) : ∀ (p : Int) (n : Nat), (Workload.assignIds p n ts).map f = ts.map f := by
  induction ts with
  | nil => intro p n; rfl
  | cons t ts ih =>
    intro p n
    simp only [Workload.assignIds, List.map_cons, ih, hf]

/-- The parts of a successful conversion. -/
theorem convertTrace_ok {fp : FP} {device path : String} {evs : List Json} {wl : Workload}
    (h : convertTrace fp device path (.doc (.arr evs)) = .ok (some wl)) :
    ∃ dev m zones s, createDeviceModel fp device = .ok dev ∧
      mapM (goldenDevice (evs.foldl goldenEvent (2000000000000000000000000000000, [])).1
        (evs.foldl goldenEvent (2000000000000000000000000000000, [])).2) dev.deviceIDs = .ok m ∧
      foldlM (zoneEvent (evs.foldl goldenEvent (2000000000000000000000000000000, [])).1) [] evs = .ok zones ∧
      foldlM (convEvent dev.arch (evs.foldl goldenEvent (2000000000000000000000000000000, [])).1 zones) {} evs = .ok s ∧
      wl.golden = (({} : Workload).setGoldenResultCycles m).golden ∧ wl.zones = zones ∧
      wl.numTransferGroups = s.groups ∧ wl.sourcePath = some path ∧
      wl.transfers = Workload.assignIds 0 0 s.transfers := by
  unfold convertTrace at h
  rw [bind_eq_ok] at h
  obtain ⟨dev, hdev, h⟩ := h
  simp only at h
  rw [bind_eq_ok] at h
  obtain ⟨g, hg, h⟩ := h
  rw [bind_eq_ok] at h
  obtain ⟨zones, hz, h⟩ := h
  rw [bind_eq_ok] at h
  obtain ⟨evs', he, h⟩ := h
  rw [← Out.ok.inj he] at h
  rw [bind_eq_ok] at h
  obtain ⟨s, hs, h⟩ := h
  have hw := (Option.some.inj (Out.ok.inj h)).symm
  unfold computeGolden at hg
  rw [bind_eq_ok] at hg
  obtain ⟨evs'', he', hg⟩ := hg
  rw [← Out.ok.inj he'] at hg
  simp only at hg
  rw [bind_eq_ok] at hg
  obtain ⟨m, hm, hg⟩ := hg
  rw [← Out.ok.inj hg] at h hw hz hs
  unfold extractZones at hz
  rw [bind_eq_ok] at hz
  obtain ⟨evs3, he3, hz⟩ := hz
  rw [← Out.ok.inj he3] at hz
  refine ⟨dev, m, zones, s, hdev, hm, hz, hs, ?_⟩
  rw [hw]
  refine ⟨rfl, rfl, rfl, rfl, ?_⟩
  simp [Workload.transfers, Workload.addPhase, Workload.setGoldenResultCycles]

/-- The zone paths of the transfers. -/
def Paths (arch : Arch) (t0 : Int) (evs pre : List Json) (ts : List Transfer) : Prop :=
  List.Forall₂ (fun e t => ∀ c, Trace.core e = some c → Trace.zonesOf evs t0 c ≠ [] →
      Trace.ZonePath evs t0 c e t.zonePath)
    ((Trace.converted [] pre).flatMap fun q => (Trace.items arch t0 q.1 q.2).map fun _ => q.2) ts

theorem convEvents_ok {arch : Arch} {t0 : Int} {evs : List Json} {zones : ZoneMap} {s : ConvState}
    (hpaths : Trace.PathsComplete evs)
    (h : foldlM (convEvent arch t0 zones) {} evs = .ok s) : Converted arch t0 evs s := by
  refine foldlM_prefix (P := Converted arch t0) ⟨rfl, rfl, rfl, rfl⟩ ?_ h
  intro pre e s s' hpre ih he
  unfold convEvent at he
  rw [bind_eq_ok] at he
  obtain ⟨p, hp, he⟩ := he
  obtain ⟨hproc, h1, h2, h3, h4⟩ := zoneStep_proc hp
  refine convBody_converted hproc (hpaths e (hpre.subset (by simp))) ?_ he
  exact ⟨h3.trans ih.rd, h4.trans ih.wr, h2.trans ih.groups, by rw [h1]; exact ih.items⟩

theorem convEvents_paths {arch : Arch} {t0 : Int} {evs : List Json} {zones : ZoneMap} {s : ConvState}
    (hpaths : Trace.PathsComplete evs) (hord : Trace.InOrder evs)
    (hz : foldlM (zoneEvent t0) [] evs = .ok zones)
    (h : foldlM (convEvent arch t0 zones) {} evs = .ok s) : Paths arch t0 evs evs s.transfers := by
  have key := foldlM_prefix (P := fun pre s => Converted arch t0 pre s ∧ ZoneInv t0 zones pre s ∧
    Paths arch t0 evs pre s.transfers) (s0 := {}) ⟨⟨rfl, rfl, rfl, rfl⟩, (fun _ _ x => absurd x nofun), List.Forall₂.nil⟩
    (l := evs) (s := s) (f := convEvent arch t0 zones) ?_ h
  · exact key.2.2
  intro pre e s s' hpre ih he
  unfold convEvent at he
  rw [bind_eq_ok] at he
  obtain ⟨p, hp, he⟩ := he
  obtain ⟨hproc, h1, h2, h3, h4⟩ := zoneStep_proc hp
  obtain ⟨hzi, hzp⟩ := zoneStep_path (extractZones_lookup hz) hord hpre ih.2.1 hp
  have hc := convBody_converted hproc (hpaths e (hpre.subset (by simp)))
    (⟨h3.trans ih.1.rd, h4.trans ih.1.wr, h2.trans ih.1.groups, by rw [h1]; exact ih.1.items⟩ : Converted arch t0 pre p.1) he
  obtain ⟨⟨l, hl, hlp⟩, hprev, hzit⟩ := convBody_extends he
  refine ⟨hc, ?_, ?_⟩
  · unfold ZoneInv
    rw [hprev, hzit]
    exact hzi
  · unfold Paths
    rw [hl, h1, converted_snoc, List.flatMap_append]
    refine List.rel_append ih.2.2 ?_
    have hi := hc.items
    rw [hl, List.map_append, h1, ih.1.items, converted_snoc, List.flatMap_append, List.append_cancel_left_eq] at hi
    split
    · rename_i hconv
      rw [if_pos hconv] at hi
      simp only [List.flatMap_cons, List.flatMap_nil, List.append_nil] at hi ⊢
      rw [← hi, List.map_map, List.forall₂_map_left_iff]
      rw [List.forall₂_same]
      intro t ht c hcore hne
      rw [hlp t ht]
      exact hzp c hcore hne
    · rename_i hconv
      rw [if_neg hconv] at hi
      simp only [List.flatMap_nil, List.map_eq_nil_iff] at hi
      rw [hi]
      exact List.Forall₂.nil

end NPE
