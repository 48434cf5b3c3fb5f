import Verif.Spec.Convert
import Verif.Proofs.Trace
import Verif.Proofs.File
import Verif.Proofs.TotalApi
import Verif.Proofs.Preprocess

/-
Conversion of well-formed traces succeeds.
-/

namespace NPE

open Out Spec

/-! ### Golden windows -/

theorem doubleToSize_total {x : Int} (h0 : 0 ≤ x) (h1 : x < 18446744073709551616) : doubleToSize x = .ok x.toNat := by
  unfold doubleToSize
  rw [if_pos ⟨h0, h1⟩]

theorem goldenCores_total (d : Int) (m : CoreTimes) (h : ∀ x ∈ m, (0 ≤ x.2.1 ∧ x.2.1 < 2 ^ 53) ∧ 0 ≤ x.2.2 ∧ x.2.2 < 2 ^ 53) :
    ∀ s : Nat × Nat, ∃ r, foldlM (goldenCore d) s m = .ok r := by
  induction m with
  | nil => intro s; exact ⟨s, rfl⟩
  | cons a m ih =>
    intro s
    obtain ⟨⟨h1, h2⟩, h3, h4⟩ := h a (by simp)
    have h5 : ∃ s1, goldenCore d s a = .ok s1 := by
      unfold goldenCore
      split
      · rw [doubleToSize_total h1 (by omega), doubleToSize_total h3 (by omega)]
        exact ⟨_, rfl⟩
      · exact ⟨s, rfl⟩
    obtain ⟨s1, h5⟩ := h5
    rw [foldlM_cons, h5, bind_ok]
    exact ih (fun x hx => h x (List.mem_cons_of_mem _ hx)) s1

theorem goldenDevice_total {evs : List Json} {t0 t : Int} (ht0 : Trace.IsOrigin evs t0)
    (htimes : ∀ e ∈ evs, 0 ≤ Trace.time e ∧ Trace.time e < 2 ^ 53) {d : Int}
    (hd : (∃ e ∈ evs, Trace.time e = 0) ∨ ∃ e ∈ evs, Trace.Counts d e) :
    ∃ r, goldenDevice t0 (evs.foldl goldenEvent (t, [])).2 d = .ok r := by
  have hT := times_spec evs t
  obtain ⟨s, hs⟩ := goldenCores_total d (evs.foldl goldenEvent (t, [])).2 (fun x hx => by
    obtain ⟨⟨e, he, _, h1⟩, e', he', _, h2⟩ := hT.sound x hx
    rw [← h1, ← h2]
    exact ⟨htimes e he, htimes e' he'⟩) (9223372036854775807, 0)
  obtain ⟨⟨i1, i2⟩, i3, ⟨i4, i5⟩, i6⟩ := goldenCores_ok d _ hs
  obtain ⟨eo, heo, ho'⟩ := ht0.1
  have ho0 := htimes eo heo
  have g0 : t0 ≤ (s.2 : Int) := by
    rcases hd with ⟨e, he, h⟩ | ⟨e, he, hc⟩
    · have := ht0.2 e he
      omega
    · obtain ⟨x, hx, hxd, h1, h2⟩ := hT.cover e he d hc
      have hx2 := i5 x hx hxd
      have := ht0.2 e he
      omega
  have g1 : t0 ≤ (s.1 : Int) ∧ s.1 ≤ 9223372036854775807 := by
    rcases i3 with h | ⟨y, hy, _, h⟩
    · rw [h]; simp only; omega
    · obtain ⟨⟨e', he', _, h'⟩, _⟩ := hT.sound y hy
      have := ht0.2 e' he'
      have := htimes e' he'
      omega
  have g2 : (s.2 : Int) < 2 ^ 53 := by
    rcases i6 with h | ⟨y, hy, _, h⟩
    · rw [h]; norm_num
    · obtain ⟨_, e', he', _, h'⟩ := hT.sound y hy
      have := htimes e' he'
      omega
  have s1 : t0 ≤ sizeToDouble s.1 ∧ sizeToDouble s.1 < 18446744073709551616 := by
    unfold sizeToDouble
    split <;> omega
  have s2 : sizeToDouble s.2 = s.2 := by unfold sizeToDouble; rw [if_neg (by omega)]
  unfold goldenDevice
  rw [hs, bind_ok, s2, doubleToSize_total (by omega) (by omega), doubleToSize_total (by omega) (by omega)]
  exact ⟨_, rfl⟩

/-! ### Zones -/

theorem riscType_of_core {e : Json} {c : Coord × RiscType} (h : Trace.core e = some c) :
    riscType? (e.strD "proc") = some c.2 ∧ c.1 = Trace.coord (Trace.chip e) (e.intD "sy" (-1)) (e.intD "sx" (-1)) := by
  unfold Trace.core at h
  rw [Option.map_eq_some_iff] at h
  obtain ⟨r, hr, rfl⟩ := h
  exact ⟨hr, rfl⟩

theorem zoneEvent_total {t0 : Int} {e : Json} (hp : ∃ c, Trace.core e = some c)
    (hz : e.strD "zone_phase" = "" ∨ e.strD "zone_phase" = "ZONE_START" ∨ e.strD "zone_phase" = "ZONE_END") (m : ZoneMap) :
    ∃ m', zoneEvent t0 m e = .ok m' := by
  unfold zoneEvent
  simp only
  split
  · rename_i h
    obtain ⟨c, hc⟩ := hp
    rw [(riscType_of_core hc).1]
    obtain ⟨p, hp⟩ : ∃ p, zonePhase? (e.strD "zone_phase") = some p := by
      rcases hz with h' | h' | h'
      · exact absurd h' h.2.2.2.2
      · rw [h']; exact ⟨_, rfl⟩
      · rw [h']; exact ⟨_, rfl⟩
    rw [hp]
    exact ⟨_, rfl⟩
  · exact ⟨m, rfl⟩

theorem foldlM_total {α σ : Type} {f : σ → α → Out σ} : ∀ {l : List α} (s : σ), (∀ a ∈ l, ∀ s, ∃ s', f s a = .ok s') →
    ∃ s', foldlM f s l = .ok s' := by
  intro l
  induction l with
  | nil => intro s _; exact ⟨s, rfl⟩
  | cons a l ih =>
    intro s h
    obtain ⟨s', hs⟩ := h a (by simp) s
    rw [foldlM_cons, hs, bind_ok]
    exact ih s' fun b hb => h b (List.mem_cons_of_mem _ hb)

/-- A walk through nested zones succeeds up to every position. -/
theorem walk_prefix {zs : List Zone} : ∀ {n k : Nat}, k ≤ n → (∃ it, walk zs n = .ok it) → ∃ it, walk zs k = .ok it := by
  intro n
  induction n with
  | zero => intro k hk h; have : k = 0 := by omega
            rw [this]; exact h
  | succ n ih =>
    intro k hk h
    by_cases hkn : k = n + 1
    · rw [hkn]; exact h
    · refine ih (by omega) ?_
      obtain ⟨it, h⟩ := h
      obtain ⟨it0, h0, _⟩ := bind_eq_ok.mp (show (walk zs n >>= fun it => it.next zs) = .ok it from h)
      exact ⟨it0, h0⟩

theorem advance_total {zs : List Zone} (hw : ∃ it, walk zs zs.length = .ok it) (t : Int) : ∀ (fuel : Nat) (it : ZoneIter),
    it.idx ≤ zs.length → zs.length < it.idx + fuel → walk zs it.idx = .ok it →
    ∃ it', it.advance zs t fuel = .ok it' ∧ it'.idx ≤ zs.length ∧ walk zs it'.idx = .ok it' := by
  intro fuel
  induction fuel with
  | zero => intro it h1 h2; omega
  | succ n ih =>
    intro it hle hlt hwalk
    unfold ZoneIter.advance
    by_cases he : it.isEnd zs = true
    · rw [if_pos he]; exact ⟨it, rfl, hle, hwalk⟩
    · rw [if_neg he]
      have hne : it.idx ≠ zs.length := by
        intro h; apply he; unfold ZoneIter.isEnd; simp [h]
      have hlt' : it.idx < zs.length := by omega
      rw [List.getElem?_eq_getElem hlt']
      simp only
      split
      · obtain ⟨it1, h1⟩ := walk_prefix (k := it.idx + 1) (by omega) hw
        have hn : it.next zs = .ok it1 := by
          have : (walk zs it.idx >>= fun it => it.next zs) = .ok it1 := h1
          rw [hwalk] at this
          exact this
        have hi : it1.idx = it.idx + 1 := (walked _ _ (by omega) h1).idx
        rw [hn, bind_ok]
        exact ih it1 (by omega) (by omega) (by rw [hi]; exact h1)
      · exact ⟨it, rfl, hle, hwalk⟩

/-- The iterator of the conversion is at a position of the zones of the core that it belongs to. -/
def Walking (zones : ZoneMap) (s : ConvState) : Prop :=
  ∃ l it, s.zit = some (l, it) ∧ zones.lookup s.prev = some l ∧ it.idx ≤ l.length ∧ walk l it.idx = .ok it

theorem zoneStep_total {t0 : Int} {zones : ZoneMap} {s : ConvState} {e : Json}
    (hwalk : ∀ c l, zones.lookup c = some l → ∃ it, walk l l.length = .ok it)
    {c : Coord × RiscType} (hc : Trace.core e = some c)
    (hs : Walking zones s ∨ ((∃ l, zones.lookup c = some l) ∧ c ≠ s.prev)) :
    ∃ s' p, zoneStep t0 zones s e = .ok (s', p) ∧ Walking zones s' := by
  obtain ⟨hr, hcoord⟩ := riscType_of_core hc
  unfold zoneStep
  rw [hr]
  change ∃ s' p, (zoneIterFor zones (mkCoord (Trace.chip e) (e.intD "sy" (-1)) (e.intD "sx" (-1)), c.2) _ s >>= _) = _ ∧ _
  rw [mkCoord_eq, ← hcoord]
  change ∃ s' p, (zoneIterFor zones c _ s >>= _) = _ ∧ _
  have key : ∃ prev l it, zoneIterFor zones c (e.intD "timestamp" 0 - t0) s = .ok (prev, some (l, it)) ∧
      zones.lookup prev = some l ∧ it.idx ≤ l.length ∧ walk l it.idx = .ok it := by
    unfold zoneIterFor
    cases hl : zones.lookup c with
    | none =>
      simp only
      rcases hs with ⟨l, it, h1, h2, h3, h4⟩ | ⟨⟨l, h⟩, _⟩
      · exact ⟨s.prev, l, it, by rw [h1], h2, h3, h4⟩
      · rw [hl] at h; exact absurd h nofun
    | some zs =>
      simp only
      obtain ⟨it0, hst, hi0, hw0⟩ : ∃ it0, (if c ≠ s.prev then some (zs, ZoneIter.init) else s.zit) = some (zs, it0) ∧
          it0.idx ≤ zs.length ∧ walk zs it0.idx = .ok it0 := by
        by_cases hcp : c = s.prev
        · rw [if_neg (by simpa using hcp)]
          rcases hs with ⟨l, it, h1, h2, h3, h4⟩ | ⟨_, h⟩
          · rw [← hcp, hl] at h2
            have := Option.some.inj h2
            subst this
            exact ⟨it, h1, h3, h4⟩
          · exact absurd hcp h
        · rw [if_pos hcp]
          exact ⟨.init, rfl, Nat.zero_le _, rfl⟩
      rw [hst]
      simp only
      obtain ⟨it1, ha, hi1, hw1⟩ := advance_total (hwalk c zs hl) (e.intD "timestamp" 0 - t0) (zs.length - it0.idx + 1) it0 hi0
        (by omega) hw0
      rw [ha]
      exact ⟨c, zs, it1, rfl, hl, hi1, hw1⟩
  obtain ⟨prev, l, it, h1, h2, h3, h4⟩ := key
  rw [h1, bind_ok]
  exact ⟨_, _, rfl, l, it, rfl, h2, h3, h4⟩

/-! ### Events -/

theorem mkMcast_ordered {a b : Coord} (h2 : a.row ≤ b.row) (h1 : a.dev = b.dev) : mkMcast a b = .ok [⟨a, b⟩] := by
  unfold mkMcast Out.assert
  rw [if_pos (decide_eq_true h1), if_pos (by rw [decide_eq_true h2]; rfl)]
  rfl

theorem plainEvent_total {arch : Arch} {t0 : Int} {s : ConvState} {e : Json}
    (hc : ∀ g, Trace.dest [] e = .mcast [g] → g.lo.row ≤ g.hi.row ∧ g.lo.col ≤ g.hi.col) :
    ∃ p, plainEvent arch t0 s e = .ok p := by
  unfold plainEvent
  simp only
  split
  · exact ⟨_, rfl⟩
  · have hd : ∀ v, ∃ d, eventDest e (e.strD "type") (e.strD "noc") (e.intD "dst_device_id" (e.intD "src_device_id" 0)) v = .ok d := by
      intro v
      unfold eventDest
      unfold Trace.dest at hc
      simp only at hc
      split
      · rename_i ht
        rw [show Trace.type e = "WRITE_MULTICAST" from ht, if_pos rfl] at hc
        simp only
        split
        · exact ⟨_, rfl⟩
        · split
          · rename_i hn
            rw [if_pos hn] at hc
            have := hc _ rfl
            simp only at this
            rw [show Trace.destChip e = e.intD "dst_device_id" (e.intD "src_device_id" 0) from rfl] at this
            rw [mkCoord_eq, mkCoord_eq, mkMcast_ordered this.1 rfl]
            exact ⟨_, rfl⟩
          · split
            · rename_i hn' hn
              rw [if_neg hn', if_pos hn] at hc
              have := hc _ rfl
              simp only at this
              rw [show Trace.destChip e = e.intD "dst_device_id" (e.intD "src_device_id" 0) from rfl] at this
              rw [mkCoord_eq, mkCoord_eq, mkMcast_ordered this.1 rfl]
              exact ⟨_, rfl⟩
            · exact ⟨_, rfl⟩
      · exact ⟨_, rfl⟩
    obtain ⟨d, hd⟩ := hd (swapRead (e.strD "type") (withState s (e.strD "type")
      ⟨e.intD "sx" (-1), e.intD "sy" (-1), e.intD "dx" (-1), e.intD "dy" (-1), e.intD "num_bytes" 0⟩))
    rw [hd, bind_ok]
    cases d <;> exact ⟨_, rfl⟩

theorem fabricRoute_wormhole {ev : FabEvent} (h : ev.arch = .wormholeB0) (s : FabState) (r : Json) :
    ∃ s', fabricRoute ev s r = .ok s' := by
  unfold fabricRoute fabricLatency
  rw [h]
  split <;> exact ⟨_, rfl⟩

theorem convBody_total {arch : Arch} {t0 : Int} {zp : String} {s : ConvState} {e : Json}
    (hc : ∀ g, Trace.dest [] e = .mcast [g] → g.lo.row ≤ g.hi.row ∧ g.lo.col ≤ g.hi.col)
    (ha : arch = .wormholeB0 ∨ ¬ Trace.UsesFabric e) : ∃ s', convBody arch t0 zp s e = .ok s' := by
  unfold convBody
  split
  · exact ⟨_, rfl⟩
  split
  · exact ⟨_, rfl⟩
  obtain ⟨p, hp⟩ := plainEvent_total (arch := arch) (t0 := t0) (s := s) hc
  rw [hp, bind_ok]
  cases p with
  | none => exact ⟨_, rfl⟩
  | some p =>
    simp only
    cases hf : (e.field "fabric_send").bind Json.asObj with
    | none => exact ⟨_, rfl⟩
    | some f =>
      simp only
      unfold fabricEvent
      cases hr : (f.field "path").bind Json.asArr with
      | none => exact ⟨_, rfl⟩
      | some rs =>
        simp only
        obtain ⟨s', hs'⟩ := foldlM_total (f := fabricRoute ⟨arch, p.v.numBytes, e.strD "type", zp, (s.groups : Int)⟩)
          (l := rs) ⟨s.transfers, 0, p.offset⟩ (by
            intro r hr' fs
            rcases ha with ha | ha
            · exact fabricRoute_wormhole ha fs r
            · exact absurd ⟨f, r, hf, by unfold Trace.routes; rw [hr]; exact hr'⟩ ha)
        rw [hs', bind_ok]
        exact ⟨_, rfl⟩

theorem convBody_zit {arch : Arch} {t0 : Int} {zp : String} {s s' : ConvState} {e : Json}
    (h : convBody arch t0 zp s e = .ok s') : s'.zit = s.zit ∧ s'.prev = s.prev := by
  unfold convBody at h
  split at h
  · rw [← Out.ok.inj h]; exact ⟨rfl, rfl⟩
  split at h
  · rw [← Out.ok.inj h]
    unfold saveState
    simp only
    split
    · exact ⟨rfl, rfl⟩
    · split <;> exact ⟨rfl, rfl⟩
  rw [bind_eq_ok] at h
  obtain ⟨p, _, h⟩ := h
  cases p with
  | none => rw [← Out.ok.inj h]; exact ⟨rfl, rfl⟩
  | some p =>
    simp only at h
    split at h
    · unfold fabricEvent at h
      split at h
      · rw [← Out.ok.inj h]; exact ⟨rfl, rfl⟩
      · rw [bind_eq_ok] at h
        obtain ⟨fs, _, h⟩ := h
        rw [← Out.ok.inj h]; exact ⟨rfl, rfl⟩
    · rw [← Out.ok.inj h]; exact ⟨rfl, rfl⟩

theorem convEvents_total {arch : Arch} {t0 : Int} {zones : ZoneMap}
    (hwalk : ∀ c l, zones.lookup c = some l → ∃ it, walk l l.length = .ok it) : ∀ {l : List Json} {s : ConvState},
    Walking zones s → (∀ e ∈ l, ∃ c, Trace.core e = some c) →
    (∀ e ∈ l, ∀ g, Trace.dest [] e = .mcast [g] → g.lo.row ≤ g.hi.row ∧ g.lo.col ≤ g.hi.col) →
    (arch = .wormholeB0 ∨ ∀ e ∈ l, ¬ Trace.UsesFabric e) → ∃ s', foldlM (convEvent arch t0 zones) s l = .ok s' := by
  intro l
  induction l with
  | nil => intro s _ _ _ _; exact ⟨s, rfl⟩
  | cons e l ih =>
    intro s hs hp hc ha
    obtain ⟨c, hcore⟩ := hp e (by simp)
    obtain ⟨s1, p, h1, hw1⟩ := zoneStep_total (t0 := t0) hwalk hcore (Or.inl hs)
    obtain ⟨s2, h2⟩ := convBody_total (arch := arch) (t0 := t0) (zp := p) (s := s1) (hc e (by simp))
      (ha.imp id fun h => h e (by simp))
    obtain ⟨z1, z2⟩ := convBody_zit h2
    rw [foldlM_cons]
    have : convEvent arch t0 zones s e = .ok s2 := by unfold convEvent; rw [h1]; exact h2
    rw [this, bind_ok]
    refine ih ?_ (fun x hx => hp x (List.mem_cons_of_mem _ hx)) (fun x hx => hc x (List.mem_cons_of_mem _ hx))
      (ha.imp id fun h x hx => h x (List.mem_cons_of_mem _ hx))
    unfold Walking
    rw [z1, z2]
    exact hw1

/-- Conversion of a well-formed trace. -/
theorem convertTrace_total {fp : FP} {device : String} {dev : Device} {evs : List Json}
    (hdev : createDeviceModel fp device = .ok dev) (hw : Trace.WellFormed dev.chips evs)
    (ha : dev.arch = .wormholeB0 ∨ ∀ e ∈ evs, ¬ Trace.UsesFabric e) (path : String) :
    ∃ wl, convertTrace fp device path (.doc (.arr evs)) = .ok (some wl) := by
  obtain ⟨e, rest, c, hcons, hcore, hdef, hzc⟩ := hw.first
  have hne : evs ≠ [] := by rw [hcons]; simp
  have ho := origin_spec hne
  obtain ⟨m, hm⟩ := Out.mapM_total (f := goldenDevice (evs.foldl goldenEvent (2000000000000000000000000000000, [])).1
    (evs.foldl goldenEvent (2000000000000000000000000000000, [])).2) (l := dev.deviceIDs) (fun d hd => by
      obtain ⟨h1, h2⟩ := mem_deviceIDs.mp hd
      exact goldenDevice_total ho hw.times (hw.active.imp id fun h => h d h1 h2))
  have hg : computeGolden dev (.arr evs) = .ok (m, (evs.foldl goldenEvent (2000000000000000000000000000000, [])).1) := by
    unfold computeGolden
    change (mapM _ _ >>= _) = _
    rw [hm]; rfl
  generalize (evs.foldl goldenEvent (2000000000000000000000000000000, [])).1 = t0 at *
  obtain ⟨zones, hz⟩ := foldlM_total (f := zoneEvent t0) (l := evs) [] fun x hx =>
    zoneEvent_total (hw.procs x hx) (hw.phases x hx)
  have hlook := extractZones_lookup hz
  have hwalk : ∀ c l, zones.lookup c = some l → ∃ it, walk l l.length = .ok it := by
    intro c' l hl
    have h1 := hlook c'
    rw [hl] at h1
    split at h1
    · exact absurd h1 nofun
    · rw [Option.some.inj h1]
      obtain ⟨st, hst⟩ := hw.nested t0 ho c'
      obtain ⟨it, h2, _⟩ := walk_opening hst _ [] (List.append_nil _).symm
      exact ⟨it, h2⟩
  have hfirst : ∃ s, foldlM (convEvent dev.arch t0 zones) {} evs = .ok s := by
    rw [hcons]
    have hmem : ∀ x ∈ rest, x ∈ evs := fun x hx => by rw [hcons]; exact List.mem_cons_of_mem _ hx
    have hlc : ∃ l, zones.lookup c = some l := by rw [hlook c, if_neg (hzc t0)]; exact ⟨_, rfl⟩
    have heE : e ∈ evs := by rw [hcons]; simp
    obtain ⟨s1, p, h1, hw1⟩ := zoneStep_total (t0 := t0) (s := {}) hwalk hcore (Or.inr ⟨hlc, hdef⟩)
    obtain ⟨s2, h2⟩ := convBody_total (arch := dev.arch) (t0 := t0) (zp := p) (s := s1) (hw.corners e heE)
      (ha.imp id fun h => h e heE)
    obtain ⟨z1, z2⟩ := convBody_zit h2
    rw [foldlM_cons]
    have : convEvent dev.arch t0 zones {} e = .ok s2 := by unfold convEvent; rw [h1]; exact h2
    rw [this, bind_ok]
    refine convEvents_total hwalk ?_ (fun x hx => hw.procs x (hmem x hx)) (fun x hx => hw.corners x (hmem x hx))
      (ha.imp id fun h x hx => h x (hmem x hx))
    unfold Walking
    rw [z1, z2]
    exact hw1
  obtain ⟨s, hs⟩ := hfirst
  unfold convertTrace
  rw [hdev, bind_ok]
  simp only
  rw [hg, bind_ok]
  simp only
  have hz' : extractZones t0 (.arr evs) = .ok zones := hz
  rw [hz', bind_ok]
  change ∃ wl, (foldlM (convEvent dev.arch t0 zones) {} evs >>= _) = _
  rw [hs]
  exact ⟨_, rfl⟩

end NPE
