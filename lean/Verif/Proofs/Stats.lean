import Verif.Proofs.Independent
import Verif.Proofs.Timing
import Verif.Proofs.Device
import Verif.Proofs.Waits
import Verif.Spec.Stats

/-
Statistics: what the timestep records and the worst end cycles are at every point of a run.
-/

namespace NPE
open Spec

namespace Stats

/-- On a table with distinct keys that contains `d`, `modify` changes the entry of `d`. -/
theorem modify_eq {d : Int} {f : DevStats → DevStats} : ∀ {st : Stats}, (st.map (·.1)).Nodup →
    d ∈ st.map (·.1) → st.modify d f = st.map fun e => (e.1, if e.1 = d then f e.2 else e.2)
  | [], _, h => by simp at h
  | e :: st, hn, h => by
    rw [List.map_cons, List.nodup_cons] at hn
    unfold modify
    by_cases hd : e.1 = d
    · rw [if_pos hd, List.map_cons, if_pos hd, ← hd]
      congr 1
      rw [List.map_congr_left (g := id), List.map_id]
      intro x hx
      have : x.1 ≠ e.1 := fun hc => hn.1 (hc ▸ List.mem_map_of_mem (f := (·.1)) hx)
      simp [this]
    · have hm : d ∈ st.map (·.1) := by
        rw [List.map_cons, List.mem_cons] at h
        exact h.resolve_left (fun hc => hd hc.symm)
      rw [if_neg hd, List.map_cons, if_neg hd, modify_eq hn.2 hm]

theorem updateWorst_eq {d : Int} {off endc : Nat} {g : Nat × Nat} {st : Stats}
    (hn : (st.map (·.1)).Nodup) (h : d ∈ st.map (·.1)) :
    st.updateWorst d off endc g = st.map fun e => (e.1,
      if e.1 = d ∧ g.1 ≤ off ∧ off ≤ g.2 then { e.2 with worst := max e.2.worst endc } else e.2) := by
  unfold updateWorst
  split
  · rename_i hw
    rw [modify_eq hn h]
    apply List.map_congr_left
    intro e _
    by_cases hd : e.1 = d <;> simp [hd, hw]
  · rename_i hw
    rw [List.map_congr_left (g := id), List.map_id]
    intro e _
    rw [if_neg (fun hc => hw hc.2)]; rfl

end Stats

theorem deviceIDs_nodup (dev : Device) : (dev.deviceIDs ++ [MESH_DEVICE]).Nodup := by
  unfold Device.deviceIDs MESH_DEVICE
  rw [List.nodup_append]
  refine ⟨(List.nodup_range).map (fun a b h => by simpa using h), by simp, ?_⟩
  intro a ha b hb
  obtain ⟨k, _, rfl⟩ := List.mem_map.mp ha
  rw [List.mem_singleton.mp hb]
  intro h
  omega

theorem mem_deviceIDs {dev : Device} {d : Int} : d ∈ dev.deviceIDs ↔ 0 ≤ d ∧ d < dev.chips := by
  unfold Device.deviceIDs
  rw [List.mem_map]
  constructor
  · rintro ⟨k, hk, rfl⟩
    have := List.mem_range.mp hk
    omega
  · rintro ⟨h1, h2⟩
    exact ⟨d.toNat, by rw [List.mem_range]; omega, by omega⟩

/-- Demands with the attributes of their links. -/
def linksOf (dev : Device) (g : Grids) : List (LinkAttr × ℚ × ℚ) := dev.linkTable.zip (g.link.zip g.mcast)
def niusOf (dev : Device) (g : Grids) : List (NIUAttr × ℚ) := dev.niuTable.zip g.niu

/-- The record of a timestep, given the demands and the active transfers in it. -/
def record (dev : Device) (h : Nat → Grids × List Nat) (d : Int) (i : Nat × Nat) : TimestepStats :=
  Stats.summarize dev (linksOf dev (h i.2).1) (niusOf dev (h i.2).1) (h i.2).1 (h i.2).2 d
    { startc := i.1, endc := i.2 }

@[simp] theorem record_start (dev : Device) (h : Nat → Grids × List Nat) (d : Int) (i : Nat × Nat) :
    (record dev h d i).startc = i.1 := rfl
@[simp] theorem record_end (dev : Device) (h : Nat → Grids × List Nat) (d : Int) (i : Nat × Nat) :
    (record dev h d i).endc = i.2 := rfl

/-- Grids of the size of the device. -/
def Sized (dev : Device) (g : Grids) : Prop :=
  g.niu.length = dev.niuTable.length ∧ g.link.length = dev.linkTable.length ∧
  g.mcast.length = dev.linkTable.length

theorem sized_init (dev : Device) : Sized dev (initGrids dev) := by
  simp [Sized, initGrids]

theorem mapM_attrs {α : Type} {table : List α} {f : Int → Out α} {n : Nat} {r : List α}
    (hn : n = table.length) (hl : table.length ≤ 32768)
    (hf : ∀ (i : Nat) (a : α), table[i]? = some a → f i = .ok a)
    (h : Out.mapM (fun (i : Nat) => f (toI16 i)) (List.range n) = .ok r) : r = table := by
  rw [Out.mapM_eq_ok] at h
  have hlen := h.length_eq
  rw [List.length_range] at hlen
  apply List.ext_getElem?
  intro i
  rcases lt_or_ge i n with hi | hi
  · have h2 := (List.forall₂_iff_get.mp h).2 i (by simpa using hi) (by omega)
    simp only [List.get_eq_getElem, List.getElem_range] at h2
    rw [toI16_of_lt (by omega), hf i table[i] (List.getElem?_eq_getElem (by omega))] at h2
    rw [List.getElem?_eq_getElem (by omega), List.getElem?_eq_getElem (by omega : i < table.length)]
    rw [Out.ok.inj h2]
  · rw [List.getElem?_eq_none (by omega), List.getElem?_eq_none (by omega)]

theorem updateSim_ok {dev : Device} (hd : DeviceOk dev) {g : Grids} (hg : Sized dev g) {live : List Nat}
    {st st' : Stats} (h : st.updateSim dev g live = .ok st') :
    st' = st.map fun e => (e.1, { e.2 with
      steps := Stats.mapLast (Stats.summarize dev (linksOf dev g) (niusOf dev g) g live e.1) e.2.steps }) := by
  unfold Stats.updateSim at h
  obtain ⟨la, h1, h⟩ := Out.bind_eq_ok.mp h
  obtain ⟨na, h2, h⟩ := Out.bind_eq_ok.mp h
  have hl : dev.linkTable.length ≤ 32768 := by rw [dev.linkTable_length]; exact hd.ids
  have hl' : dev.niuTable.length ≤ 32768 := by rw [dev.niuTable_length]; exact hd.ids
  have e1 := mapM_attrs hg.2.1 hl (fun i a ha => by
    unfold Device.getLinkAttributes
    rw [if_neg (by omega), Int.toNat_natCast, ha]) h1
  have e2 := mapM_attrs hg.1 hl' (fun i a ha => by
    unfold Device.getNIUAttributes
    rw [if_neg (by omega), Int.toNat_natCast, ha]) h2
  simp only [Out.pure_eq, Out.ok.injEq] at h
  rw [← h, e1, e2]
  rfl

theorem mapLast_append {α : Type} (f : α → α) (l : List α) (a : α) :
    Stats.mapLast f (l ++ [a]) = l ++ [f a] := by
  induction l with
  | nil => rfl
  | cons b l ih =>
    cases l with
    | nil => rfl
    | cons c l => rw [List.cons_append, List.cons_append, Stats.mapLast, ← List.cons_append, ih]; rfl

theorem intervals_succ {cpt c g : Nat} (hpos : 0 < cpt) (hc : cpt ∣ c) :
    intervals cpt (c + cpt) g = intervals cpt c g ++ if g ≤ c + cpt then [(c, c + cpt)] else [] := by
  obtain ⟨n, rfl⟩ := hc
  unfold intervals
  rw [Nat.add_div_right _ hpos, Nat.mul_div_cancel_left _ hpos, List.range_succ, List.map_append,
    List.filter_append]
  congr 1
  have e : n * cpt = cpt * n := Nat.mul_comm _ _
  have e' : (n + 1) * cpt = cpt * n + cpt := by ring
  simp only [List.map_cons, List.map_nil, List.filter_cons, List.filter_nil, e, e']
  by_cases h : g ≤ cpt * n + cpt <;> simp [h]

theorem intervals_mem {cpt c g : Nat} {i : Nat × Nat} (h : i ∈ intervals cpt c g) :
    i.2 = i.1 + cpt ∧ i.2 ≤ c ∧ g ≤ i.2 := by
  unfold intervals at h
  rw [List.mem_filter] at h
  obtain ⟨k, hk, rfl⟩ := List.mem_map.mp h.1
  have hk := List.mem_range.mp hk
  refine ⟨by simp only; ring, ?_, by simpa using h.2⟩
  have : (k + 1) * cpt ≤ c / cpt * cpt := Nat.mul_le_mul_right _ hk
  exact le_trans this (Nat.div_mul_le_self c cpt)

/-- The largest end cycle of the relevant transfers. -/
def lastEnd (ts : List TState) (d : Int) (g : Nat × Nat) : Nat :=
  ts.foldr (fun t m => if Relevant d g t.params then max t.endc m else m) 0

theorem lastEnd_spec (ts : List TState) (d : Int) (g : Nat × Nat) : LastEnd ts d g (lastEnd ts d g) := by
  unfold LastEnd
  induction ts with
  | nil => simp [lastEnd]
  | cons t ts ih =>
    have e : lastEnd (t :: ts) d g =
        if Relevant d g t.params then max t.endc (lastEnd ts d g) else lastEnd ts d g := rfl
    rw [e]
    by_cases h : Relevant d g t.params
    · rw [if_pos h]
      refine ⟨?_, ?_⟩
      · intro u hu hr
        rcases List.mem_cons.mp hu with rfl | hu
        · exact le_max_left _ _
        · exact le_trans (ih.1 u hu hr) (le_max_right _ _)
      · rcases le_total (lastEnd ts d g) t.endc with hle | hle
        · rw [max_eq_left hle]; exact Or.inr ⟨t, by simp, h, rfl⟩
        · rw [max_eq_right hle]
          rcases ih.2 with h0 | ⟨u, hu, h1, h2⟩
          · exact Or.inl h0
          · exact Or.inr ⟨u, by simp [hu], h1, h2⟩
    · rw [if_neg h]
      refine ⟨?_, ?_⟩
      · intro u hu hr
        rcases List.mem_cons.mp hu with rfl | hu
        · exact absurd hr h
        · exact ih.1 u hu hr
      · rcases ih.2 with h0 | ⟨u, hu, h1, h2⟩
        · exact Or.inl h0
        · exact Or.inr ⟨u, by simp [hu], h1, h2⟩

theorem lastEnd_unique {ts : List TState} {d : Int} {g : Nat × Nat} {m m' : Nat}
    (h : LastEnd ts d g m) (h' : LastEnd ts d g m') : m = m' := by
  have aux : ∀ {m m'}, LastEnd ts d g m → LastEnd ts d g m' → m ≤ m' := by
    intro m m' h h'
    rcases h.2 with h0 | ⟨t, ht, hr, he⟩
    · omega
    · rw [← he]; exact h'.1 t ht hr
  exact le_antisymm (aux h h') (aux h' h)

/-- What matters for `lastEnd` of a transfer. -/
theorem lastEnd_congr {ts ts' : List TState} {d : Int} {g : Nat × Nat}
    (h : ts'.map (fun t => (t.params, t.endc)) = ts.map fun t => (t.params, t.endc)) :
    lastEnd ts' d g = lastEnd ts d g := by
  have e : ∀ ts : List TState, lastEnd ts d g =
      (ts.map fun t => (t.params, t.endc)).foldr
        (fun p m => if Relevant d g p.1 then max p.2 m else m) 0 := by
    intro ts; rw [List.foldr_map]; rfl
  rw [e, e, h]

theorem lastEnd_set {ts : List TState} {d : Int} {g : Nat × Nat} {i : Nat} {t t' : TState}
    (ht : ts[i]? = some t) (h0 : t.endc = 0) (hp : t'.params = t.params) :
    lastEnd (ts.set i t') d g =
      if Relevant d g t.params then max (lastEnd ts d g) t'.endc else lastEnd ts d g := by
  induction ts generalizing i with
  | nil => simp at ht
  | cons a ts ih =>
    have e : ∀ (b : TState) (l : List TState), lastEnd (b :: l) d g =
        if Relevant d g b.params then max b.endc (lastEnd l d g) else lastEnd l d g := fun _ _ => rfl
    cases i with
    | zero =>
      simp only [List.getElem?_cons_zero, Option.some.injEq] at ht
      subst ht
      rw [List.set_cons_zero, e, e, hp]
      by_cases h : Relevant d g a.params
      · simp only [if_pos h, h0]; omega
      · simp only [if_neg h]
    | succ i =>
      rw [List.getElem?_cons_succ] at ht
      rw [List.set_cons_succ, e, e, ih ht]
      by_cases h : Relevant d g a.params <;> by_cases h' : Relevant d g t.params <;>
        (simp only [h, h', if_true, if_false]; try omega)

/-- The statistics invariant of a run; `h` gives the demands and active transfers of the timestep
that ends at a given cycle. -/
structure StatsInv (cfg : SimCfg) (h : Nat → Grids × List Nat) (c : Nat) (s : Sim) : Prop where
  keys : s.stats.map (·.1) = cfg.dev.deviceIDs ++ [MESH_DEVICE]
  steps : ∀ e ∈ s.stats, ∀ g, cfg.golden.at e.1 = .ok g →
    e.2.steps = (intervals cfg.cpt c g.1).map (record cfg.dev h e.1)
  worst : ∀ e ∈ s.stats, ∀ g, cfg.golden.at e.1 = .ok g → e.2.worst = lastEnd s.ts e.1 g
  zero : ∀ (i : Nat) t, s.ts[i]? = some t → (i ∈ s.queue.map (·.2) ∨ i ∈ s.live) → t.endc = 0
  fresh : ∀ e ∈ s.stats, e.2.completed = false ∧ e.2.estimatedCongFree = 0
  golden : 0 < c → ∀ e ∈ s.stats, ∃ g, cfg.golden.at e.1 = .ok g

theorem statsInv_init {cfg : SimCfg} {ho : HashOrder} {wl : Workload} {s0 : Sim}
    (h0 : initSim cfg.fp cfg.dev ho wl = .ok s0) (h : Nat → Grids × List Nat) : StatsInv cfg h 0 s0 := by
  have I := (initSim_ok h0).1
  have hst : ∀ e ∈ s0.stats, e.2 = {} := by
    intro e he
    rw [I.stats] at he
    unfold Stats.init at he
    obtain ⟨d, _, rfl⟩ := List.mem_map.mp he
    rfl
  refine ⟨?_, ?_, ?_, ?_, ?_, by omega⟩
  · rw [I.stats]
    unfold Stats.init
    rw [List.map_map]
    exact List.map_id _
  · intro e he g _
    rw [hst e he]
    simp [intervals]
  · intro e he g _
    rw [hst e he]
    have h1 := lastEnd_spec s0.ts e.1 g
    have : LastEnd s0.ts e.1 g 0 := by
      refine ⟨?_, Or.inl rfl⟩
      intro t ht _
      obtain ⟨i, hi⟩ := List.mem_iff_getElem?.mp ht
      rw [(I.slots i t hi).2.2.2.1]
    exact lastEnd_unique this h1
  · intro i t hi _
    exact (I.slots i t hi).2.2.2.1
  · intro e he; rw [hst e he]; exact ⟨rfl, rfl⟩

/-- What the update loop does to the statistics. -/
structure UpdInv (cfg : SimCfg) (st : Stats) (q L : List Nat) (l : List Nat) (u : Upd) : Prop where
  keys : u.stats.map (·.1) = st.map (·.1)
  steps : u.stats.map (fun e => (e.1, e.2.steps, e.2.completed, e.2.estimatedCongFree)) =
    st.map fun e => (e.1, e.2.steps, e.2.completed, e.2.estimatedCongFree)
  worst : ∀ e ∈ u.stats, ∀ g, cfg.golden.at e.1 = .ok g → e.2.worst = lastEnd u.ts e.1 g
  zero : ∀ (i : Nat) t, u.ts[i]? = some t →
    (i ∈ l ∨ i ∈ q ∨ (i ∈ L ∧ t.moved ≠ t.params.totalBytes)) → t.endc = 0
  nodup : l.Nodup
  disj : ∀ i ∈ l, i ∉ q
  chips : ∀ (i : Nat) t, u.ts[i]? = some t → t.params.src.dev ∈ cfg.dev.deviceIDs

theorem worst_one {cfg : SimCfg} {ts : List TState} {st : Stats} {d : Int} {off e : Nat} {g : Nat × Nat}
    (P : Int → Prop) [DecidablePred P]
    (hg : cfg.golden.at d = .ok g) (hn : (st.map (·.1)).Nodup) (hd : d ∈ st.map (·.1))
    (hw : ∀ x ∈ st, ∀ g, cfg.golden.at x.1 = .ok g → x.2.worst =
      if P x.1 ∧ g.1 ≤ off ∧ off ≤ g.2 then max (lastEnd ts x.1 g) e else lastEnd ts x.1 g) :
    ∀ x ∈ st.updateWorst d off e g, ∀ g, cfg.golden.at x.1 = .ok g → x.2.worst =
      if (x.1 = d ∨ P x.1) ∧ g.1 ≤ off ∧ off ≤ g.2 then max (lastEnd ts x.1 g) e else lastEnd ts x.1 g := by
  rw [Stats.updateWorst_eq hn hd]
  intro x hx g' hg'
  obtain ⟨y, hy, rfl⟩ := List.mem_map.mp hx
  have hy' := hw y hy g' hg'
  simp only
  by_cases h1 : y.1 = d
  · simp only at hg'
    rw [h1, hg] at hg'
    have := Out.ok.inj hg'
    subst this
    by_cases h2 : g.1 ≤ off ∧ off ≤ g.2
    · rw [if_pos ⟨h1, h2⟩, if_pos ⟨Or.inl h1, h2⟩]
      simp only
      rw [hy']
      split <;> omega
    · rw [if_neg (fun hc => h2 hc.2), if_neg (fun hc => h2 hc.2), hy', if_neg (fun hc => h2 hc.2)]
  · rw [if_neg (fun hc => h1 hc.1), hy']
    simp only [h1, false_or]

theorem updateOne_stats {cfg : SimCfg} {curr sot : Nat} {st : Stats} {q L : List Nat}
    (hk : st.map (·.1) = cfg.dev.deviceIDs ++ [MESH_DEVICE])
    (i : Nat) (l : List Nat) (u u' : Upd) (hi : UpdInv cfg st q L (i :: l) u)
    (h : updateOne cfg curr sot u i = .ok u') : UpdInv cfg st q L l u' := by
  obtain ⟨U⟩ := updateOne_ok h
  have hn : (st.map (·.1)).Nodup := by rw [hk]; exact deviceIDs_nodup _
  have hz := hi.zero i U.t U.get (Or.inl (by simp))
  have hil : i ∉ l := (List.nodup_cons.mp hi.nodup).1
  have hiq : i ∉ q := hi.disj i (by simp)
  have hchips : ∀ (t' : TState), t'.params = U.t.params → ∀ (j : Nat) t,
      (u.ts.set i t')[j]? = some t → t.params.src.dev ∈ cfg.dev.deviceIDs := by
    intro t' hp j t hj
    rcases getElem?_set' hj with ⟨_, rfl⟩ | ⟨_, hj⟩
    · rw [hp]; exact hi.chips i _ U.get
    · exact hi.chips j t hj
  have hzero : ∀ (t' : TState), (t'.endc = 0 ∨ t'.moved = t'.params.totalBytes) → ∀ (j : Nat) t,
      (u.ts.set i t')[j]? = some t → (j ∈ l ∨ j ∈ q ∨ (j ∈ L ∧ t.moved ≠ t.params.totalBytes)) →
      t.endc = 0 := by
    intro t' ht' j t ht hj
    rcases getElem?_set' ht with ⟨rfl, rfl⟩ | ⟨_, ht⟩
    · rcases hj with hj | hj | hj
      · exact absurd hj hil
      · exact absurd hj hiq
      · exact ht'.resolve_right hj.2
    · refine hi.zero j t ht ?_
      rcases hj with hj | hj
      · exact Or.inl (by simp [hj])
      · exact Or.inr hj
  have hnd := (List.nodup_cons.mp hi.nodup).2
  have hdj : ∀ j ∈ l, j ∉ q := fun j hj => hi.disj j (by simp [hj])
  rcases U.res with ⟨_, hu⟩ | ⟨_, e, deps', g, gm, _, _, hg, hgm, hu⟩ <;> rw [hu]
  · refine ⟨hi.keys, hi.steps, ?_, hzero _ (Or.inl hz), hnd, hdj, hchips _ rfl⟩
    intro x hx g hg
    simp only at hx ⊢
    rw [hi.worst x hx g hg, lastEnd_set U.get hz]
    · simp only [hz]
      split <;> omega
    · rfl
  · have hdk : U.t.params.src.dev ∈ u.stats.map (·.1) := by
      rw [hi.keys, hk]; exact List.mem_append_left _ (hi.chips i _ U.get)
    have hun : (u.stats.map (·.1)).Nodup := by rw [hi.keys]; exact hn
    have e1 := Stats.updateWorst_eq (off := U.t.params.offset) (endc := e % 4294967296) (g := g) hun hdk
    have hk1 : (u.stats.updateWorst U.t.params.src.dev U.t.params.offset (e % 4294967296) g).map (·.1) =
        u.stats.map (·.1) := by rw [e1, List.map_map]; rfl
    have hmk : MESH_DEVICE ∈ (u.stats.updateWorst U.t.params.src.dev U.t.params.offset
        (e % 4294967296) g).map (·.1) := by rw [hk1, hi.keys, hk]; simp
    have hun1 : ((u.stats.updateWorst U.t.params.src.dev U.t.params.offset
        (e % 4294967296) g).map (·.1)).Nodup := by rw [hk1]; exact hun
    have e2 := Stats.updateWorst_eq (off := U.t.params.offset) (endc := e % 4294967296) (g := gm) hun1 hmk
    refine ⟨?_, ?_, ?_, hzero _ (Or.inr rfl), hnd, hdj, hchips _ rfl⟩
    · simp only
      rw [e2, List.map_map]
      exact hk1.trans hi.keys
    · simp only
      rw [e2, e1, List.map_map, List.map_map, ← hi.steps]
      apply List.map_congr_left
      intro x _
      simp only [Function.comp]
      split <;> split <;> rfl
    · have w0 : ∀ x ∈ u.stats, ∀ g, cfg.golden.at x.1 = .ok g → x.2.worst =
          if False ∧ g.1 ≤ U.t.params.offset ∧ U.t.params.offset ≤ g.2 then
            max (lastEnd u.ts x.1 g) (e % 4294967296) else lastEnd u.ts x.1 g := by
        intro x hx g hg
        rw [if_neg (fun hc => hc.1)]; exact hi.worst x hx g hg
      have w1 := worst_one (ts := u.ts) (fun _ => False) hg hun hdk w0
      have w2 := worst_one (ts := u.ts) (fun d => d = U.t.params.src.dev ∨ False) hgm hun1 hmk w1
      intro x hx g' hg'
      simp only at hx ⊢
      rw [w2 x hx g' hg', lastEnd_set U.get hz]
      · unfold Relevant MESH_DEVICE
        simp only [or_false, eq_comm (a := U.t.params.src.dev)]
      · rfl

theorem foldUpd_stats {cfg : SimCfg} {curr sot : Nat} {st : Stats} {q L : List Nat}
    (hk : st.map (·.1) = cfg.dev.deviceIDs ++ [MESH_DEVICE]) (l : List Nat) (u u' : Upd)
    (hi : UpdInv cfg st q L l u) (h : Out.foldlM (updateOne cfg curr sot) u l = .ok u') :
    UpdInv cfg st q L [] u' := by
  induction l generalizing u with
  | nil =>
    rw [Out.foldlM_nil] at h
    rw [← Out.ok.inj h]; exact hi
  | cons i l ih =>
    rw [Out.foldlM_cons] at h
    obtain ⟨u1, h1, h⟩ := Out.bind_eq_ok.mp h
    exact ih u1 (updateOne_stats hk i l u u1 hi h1) h

/-- The new timestep records. -/
theorem insertTimestep_ok {golden : GoldenMap} {a b : Nat} {st st' : Stats}
    (h : st.insertTimestep golden a b = .ok st') :
    List.Forall₂ (fun e e' => e'.1 = e.1 ∧ e'.2.worst = e.2.worst ∧
      e'.2.completed = e.2.completed ∧ e'.2.estimatedCongFree = e.2.estimatedCongFree ∧
      ∃ g, golden.at e.1 = .ok g ∧ e'.2.steps = e.2.steps ++
        if g.1 ≤ b then [({ startc := a, endc := b } : TimestepStats)] else []) st st' := by
  unfold Stats.insertTimestep at h
  rw [Out.mapM_eq_ok] at h
  refine h.imp ?_
  intro e e' he
  unfold Stats.insertOne at he
  obtain ⟨g, hg, he⟩ := Out.bind_eq_ok.mp he
  split at he
  · rename_i hc
    rw [← Out.ok.inj he]
    exact ⟨rfl, rfl, rfl, rfl, g, hg, by rw [if_pos hc]⟩
  · rename_i hc
    rw [← Out.ok.inj he]
    exact ⟨rfl, rfl, rfl, rfl, g, hg, by rw [if_neg hc, List.append_nil]⟩

theorem forall2_map_eq {α β γ : Type} {R : α → β → Prop} {f : α → γ} {g : β → γ} {l : List α} {l' : List β}
    (h : List.Forall₂ R l l') (hr : ∀ a b, R a b → g b = f a) : l'.map g = l.map f := by
  induction h with
  | nil => rfl
  | cons h _ ih => rw [List.map_cons, List.map_cons, hr _ _ h, ih]

theorem forall2_mem {α β : Type} {R : α → β → Prop} {l : List α} {l' : List β}
    (h : List.Forall₂ R l l') {b : β} (hb : b ∈ l') : ∃ a ∈ l, R a b := by
  induction h with
  | nil => simp at hb
  | cons h _ ih =>
    rcases List.mem_cons.mp hb with rfl | hb
    · exact ⟨_, by simp, h⟩
    · obtain ⟨a, ha, hr⟩ := ih hb
      exact ⟨a, by simp [ha], hr⟩

/-- An entry of one table, found in another table with the same keys and records. -/
theorem mem_of_core {γ : Type} {f : Int × DevStats → γ} {st st' : Stats} (h : st'.map f = st.map f)
    {e : Int × DevStats} (he : e ∈ st') : ∃ e0 ∈ st, f e0 = f e := by
  have := List.mem_map_of_mem (f := f) he
  rw [h] at this
  exact List.mem_map.mp this

/-- Replace the entry of one cycle in the history. -/
def setHist (h : Nat → Grids × List Nat) (c : Nat) (x : Grids × List Nat) : Nat → Grids × List Nat :=
  fun k => if k = c then x else h k

theorem statsInv_step {cfg : SimCfg} (hd : DeviceOk cfg.dev) (hpos : 0 < cfg.cpt)
    {h : Nat → Grids × List Nat} {c : Nat} {s s' : Sim} (hc : cfg.cpt ∣ c)
    (hst : StatsInv cfg h c s) (F : StepFacts cfg c (c + cfg.cpt) s s')
    (hon : ∀ (i : Nat) t, s.ts[i]? = some t → t.params.src.dev ∈ cfg.dev.deviceIDs)
    (hsz : Sized cfg.dev F.P.g2) :
    StatsInv cfg (setHist h (c + cfg.cpt) (F.P.g2, F.P.s1.live)) (c + cfg.cpt) s' := by
  have hins := insertTimestep_ok F.P.ins
  have hupd := updateSim_ok hd hsz F.P.upd
  rw [F.stats1] at hupd
  -- transfers: activation and rates
  have hts1 : ∀ (i : Nat) t, F.P.ts2[i]? = some t → ∃ t0, s.ts[i]? = some t0 ∧
      t.params = t0.params ∧ t.endc = t0.endc := by
    intro i t hi
    have hlt : i < F.P.s1.ts.length := by
      rw [← F.len2]; exact (List.getElem?_eq_some_iff.mp hi).1
    obtain ⟨t1, h2⟩ : ∃ t1, F.P.s1.ts[i]? = some t1 := ⟨_, List.getElem?_eq_getElem hlt⟩
    have h1 := F.only2 i t1 t h2 hi
    have hn : (F.acts.map (·.2)).Nodup := by
      have := (List.nodup_append.mp F.inv1.nodup).2.1
      rw [F.live1] at this
      exact (List.nodup_append.mp this).2.1
    rw [F.ts1, updIds_getElem? _ _ _ hn] at h2
    split at h2
    · obtain ⟨t0, ht0, he⟩ := Option.map_eq_some_iff.mp h2
      refine ⟨t0, ht0, ?_, ?_⟩ <;> rw [h1, ← he] <;> rfl
    · refine ⟨_, h2, ?_, ?_⟩ <;> rw [h1]
  have hcore : F.P.ts2.map (fun t => (t.params, t.endc)) = s.ts.map fun t => (t.params, t.endc) := by
    apply List.ext_getElem?
    intro i
    rw [List.getElem?_map, List.getElem?_map]
    have hlen : F.P.ts2.length = s.ts.length := by rw [F.len2, F.ts1, updIds_length]
    cases hi : F.P.ts2[i]? with
    | none =>
      rw [List.getElem?_eq_none_iff] at hi
      rw [List.getElem?_eq_none (by omega)]
    | some t =>
      obtain ⟨t0, h0, h1, h2⟩ := hts1 i t hi
      rw [h0, Option.map_some, Option.map_some, h1, h2]
  have hq1 : ∀ i, i ∈ F.P.s1.queue.map (·.2) → i ∈ s.queue.map (·.2) := by
    intro i hi
    obtain ⟨x, hx, rfl⟩ := List.mem_map.mp hi
    exact List.mem_map_of_mem (List.mem_of_mem_filter (F.queuePerm.mem_iff.mp hx))
  have hl1 : ∀ i, i ∈ F.P.s1.live → i ∈ s.queue.map (·.2) ∨ i ∈ s.live := by
    intro i hi
    rw [F.live1, List.mem_append] at hi
    rcases hi with hi | hi
    · exact Or.inr hi
    · obtain ⟨x, hx, rfl⟩ := List.mem_map.mp hi
      exact Or.inl (List.mem_map_of_mem (List.mem_of_mem_filter (F.actsPerm.mem_iff.mp hx)))
  have hk0 : F.P.stats0.map (·.1) = s.stats.map (·.1) := forall2_map_eq hins fun a b h => h.1
  have hk2 : F.P.stats2.map (·.1) = cfg.dev.deviceIDs ++ [MESH_DEVICE] := by
    rw [hupd, List.map_map, ← hst.keys, ← hk0]; rfl
  have hdisj : ∀ i ∈ F.P.s1.live, i ∉ F.P.s1.queue.map (·.2) := by
    intro i hi hq
    exact (List.nodup_append.mp F.inv1.nodup).2.2 i hq i hi rfl
  have U0 : UpdInv cfg F.P.stats2 (F.P.s1.queue.map (·.2)) F.P.s1.live F.P.s1.live
      { ts := F.P.ts2, deps := F.P.s1.deps, stats := F.P.stats2 } := by
    refine ⟨rfl, rfl, ?_, ?_, (List.nodup_append.mp F.inv1.nodup).2.1, hdisj, ?_⟩
    · intro e he g hg
      simp only at he ⊢
      rw [hupd] at he
      obtain ⟨e1, he1, rfl⟩ := List.mem_map.mp he
      obtain ⟨e0, he0, h1, h2, _⟩ := forall2_mem hins he1
      simp only at hg ⊢
      rw [h1] at hg ⊢
      rw [h2, hst.worst e0 he0 g hg, lastEnd_congr hcore]
    · intro i t hi hor
      obtain ⟨t0, h0, _, h2⟩ := hts1 i t hi
      rw [h2]
      refine hst.zero i t0 h0 ?_
      rcases hor with hor | hor | hor
      · exact hl1 i hor
      · exact Or.inl (hq1 i hor)
      · exact hl1 i hor.1
    · intro i t hi
      obtain ⟨t0, h0, h1, _⟩ := hts1 i t hi
      rw [h1]; exact hon i t0 h0
  have U1 := foldUpd_stats hk2 F.P.s1.live _ F.P.u U0 F.P.fold
  -- where an entry of the result comes from
  have origin : ∀ e ∈ F.P.u.stats, ∃ e0 ∈ s.stats, e0.1 = e.1 ∧
      e.2.completed = e0.2.completed ∧ e.2.estimatedCongFree = e0.2.estimatedCongFree ∧
      ∃ g, cfg.golden.at e.1 = .ok g ∧ e.2.steps = Stats.mapLast
        (Stats.summarize cfg.dev (linksOf cfg.dev F.P.g2) (niusOf cfg.dev F.P.g2) F.P.g2 F.P.s1.live e.1)
        (e0.2.steps ++ if g.1 ≤ c + cfg.cpt then
          [({ startc := c, endc := c + cfg.cpt } : TimestepStats)] else []) := by
    intro e he
    obtain ⟨e2, he2, h2⟩ := mem_of_core U1.steps he
    simp only [Prod.mk.injEq] at h2
    rw [hupd] at he2
    obtain ⟨e1, he1, h1⟩ := List.mem_map.mp he2
    obtain ⟨e0, he0, a1, a2, a3, a4, g, hg, a5⟩ := forall2_mem hins he1
    rw [← h1] at h2
    simp only at h2
    refine ⟨e0, he0, ?_, ?_, ?_, g, ?_, ?_⟩
    · rw [← h2.1, a1]
    · rw [← h2.2.2.1, a3]
    · rw [← h2.2.2.2, a4]
    · rw [← h2.1, a1]; exact hg
    · rw [← h2.2.1, a5, h2.1, Nat.add_sub_cancel]
  have es : s'.stats = F.P.u.stats := congrArg Sim.stats F.P.res
  have et : s'.ts = F.P.u.ts := congrArg Sim.ts F.P.res
  have eq : s'.queue = F.P.s1.queue := by
    have := congrArg Sim.queue F.P.res
    exact this
  have el : s'.live = F.P.s1.live.filter fun id => !isComplete F.P.u.ts id :=
    congrArg Sim.live F.P.res
  constructor <;> simp only [es, et, eq, el]
  · rw [U1.keys]; exact hk2
  · intro e he g hg
    obtain ⟨e0, he0, h1, _, _, g', hg', h2⟩ := origin e he
    rw [hg] at hg'
    have := Out.ok.inj hg'
    subst this
    have h3 := hst.steps e0 he0 g (by rw [h1]; exact hg)
    have hold : (intervals cfg.cpt c g.1).map
        (record cfg.dev (setHist h (c + cfg.cpt) (F.P.g2, F.P.s1.live)) e.1) = e0.2.steps := by
      rw [h3, h1]
      apply List.map_congr_left
      intro i hi
      have := intervals_mem hi
      unfold record setHist
      rw [if_neg (by omega)]
    rw [h2, intervals_succ hpos hc, List.map_append, hold]
    by_cases hle : g.1 ≤ c + cfg.cpt
    · rw [if_pos hle, if_pos hle, mapLast_append]
      congr 1
      simp only [List.map_cons, List.map_nil]
      unfold record setHist
      rw [if_pos rfl]
    · rw [if_neg hle, if_neg hle, List.append_nil]
      have : e0.2.steps = [] := by
        rw [h3, List.map_eq_nil_iff, List.eq_nil_iff_forall_not_mem]
        intro i hi
        have := intervals_mem hi
        omega
      rw [this]; rfl
  · exact U1.worst
  · intro i t hi hor
    refine U1.zero i t hi (Or.inr ?_)
    rcases hor with hor | hor
    · exact Or.inl hor
    · rw [List.mem_filter] at hor
      refine Or.inr ⟨hor.1, ?_⟩
      have h2 := hor.2
      unfold isComplete at h2
      rw [hi] at h2
      simpa using h2
  · intro e he
    obtain ⟨e0, he0, _, h1, h2, _⟩ := origin e he
    rw [h1, h2]; exact hst.fresh e0 he0
  · intro _ e he
    obtain ⟨e0, he0, _, _, _, g, hg, _⟩ := origin e he
    exact ⟨g, hg⟩

theorem Spec.Reach.dvd {cfg : SimCfg} {s0 : Sim} {c : Nat} {s : Sim} (h : Reach cfg s0 c s) : cfg.cpt ∣ c := by
  induction h with
  | start => exact dvd_zero _
  | step _ _ _ ih => exact Dvd.dvd.add ih (dvd_refl _)

/-- The statistics of a run.  `Q` is any property of the demands that the rate computation
keeps. -/
theorem Spec.Reach.statsInv {cfg : SimCfg} (hr : RatesOk cfg.rates) (hd : DeviceOk cfg.dev)
    (hpos : 0 < cfg.cpt) {ho : HashOrder} {wl : Workload} {s0 : Sim}
    (h0 : initSim cfg.fp cfg.dev ho wl = .ok s0)
    (hon : ∀ (i : Nat) t, s0.ts[i]? = some t → t.params.src.dev ∈ cfg.dev.deviceIDs)
    (Q : Grids → Prop) (hq0 : Q (initGrids cfg.dev)) (hqs : ∀ g, Q g → Sized cfg.dev g)
    (hq : ∀ a b g ts live ts' g', a ≤ b → live.Nodup →
      (∀ (i : Nat) t, ts[i]? = some t → ∃ t0, s0.ts[i]? = some t0 ∧ t0.params = t.params ∧ t0.route = t.route) →
      Q g → cfg.rates a b g ts live = .ok (ts', g') → Q g')
    {c : Nat} {s : Sim} (hs : Reach cfg s0 c s) :
    ∃ h : Nat → Grids × List Nat, StatsInv cfg h c s ∧ (∀ k, Q (h k).1) ∧ Q s.grids ∧
      ∀ k, ∀ id ∈ (h k).2, id < s0.ts.length := by
  have hinv := init_inv h0
  induction hs with
  | start =>
    refine ⟨fun _ => (initGrids cfg.dev, []), statsInv_init h0 _, fun _ => hq0, ?_, by simp⟩
    rw [(initSim_ok h0).1.grids]; exact hq0
  | @step c sa sb hsa hc h ih =>
    obtain ⟨hist, hst, hqh, hqg, hlv⟩ := ih
    have hia := hsa.inv hr hinv
    obtain ⟨F⟩ := step_facts hr (Nat.le_add_right c _) hia h
    have hq2 : Q F.P.g2 := by
      refine hq _ _ _ _ _ _ _ (Nat.sub_le _ _) (List.nodup_append.mp F.inv1.nodup).2.1 ?_ (by rw [F.grids1]; exact hqg)
        F.P.rates
      intro i t hi
      have hn : (F.acts.map (·.2)).Nodup := by
        have := (List.nodup_append.mp F.inv1.nodup).2.1
        rw [F.live1] at this
        exact (List.nodup_append.mp this).2.1
      rw [F.ts1, updIds_getElem? _ _ _ hn] at hi
      split at hi
      · obtain ⟨ta, hta, he⟩ := Option.map_eq_some_iff.mp hi
        obtain ⟨t0, b1, b2, b3, _⟩ := hsa.static_get hr hinv hta
        exact ⟨t0, b1, by rw [b2, ← he]; rfl, by rw [b3, ← he]; rfl⟩
      · obtain ⟨t0, b1, b2, b3, _⟩ := hsa.static_get hr hinv hi
        exact ⟨t0, b1, b2, b3⟩
    refine ⟨setHist hist (c + cfg.cpt) (F.P.g2, F.P.s1.live), statsInv_step hd hpos hsa.dvd hst F ?_
      (hqs _ hq2), ?_, ?_, ?_⟩
    · intro i t hi
      obtain ⟨t0, b1, b2, _⟩ := hsa.static_get hr hinv hi
      rw [← b2]; exact hon i t0 b1
    · intro k
      unfold setHist
      split
      · exact hq2
      · exact hqh k
    · rw [F.P.res]; exact hq2
    · intro k
      unfold setHist
      split
      · intro id hid
        have hlt := F.inv1.lt id (List.mem_append_right _ hid)
        have hlen : F.P.s1.ts.length = sa.ts.length := by rw [F.ts1, updIds_length]
        rw [hlen] at hlt
        obtain ⟨t0, b1, _⟩ := hsa.static_get hr hinv (List.getElem?_eq_getElem hlt)
        exact (List.getElem?_eq_some_iff.mp b1).1
      · exact hlv k

end NPE
