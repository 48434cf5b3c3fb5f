import Verif.Spec.Interleave
import Verif.Proofs.Trace
import Mathlib.Logic.Equiv.Basic

/-
Proofs about the interleaving of traces (C153).
-/

namespace NPE
open Spec Out

section
open Classical

/-- Lists with the same elements of each key are rearrangements of each other. -/
theorem perm_of_keys {α κ : Type} (key : α → κ) {l l' : List α}
    (h : ∀ c, l'.filter (fun a => decide (key a = c)) = l.filter (fun a => decide (key a = c))) : l'.Perm l := by
  rw [List.perm_iff_count]
  intro a
  have e := congrArg (List.count a) (h (key a))
  rwa [List.count_filter (by simp), List.count_filter (by simp)] at e

end

/-- The events of the own core. -/
def ownPast (q : List Json × Json) : List Json × Json := (q.1.filter fun x => Trace.core x = Trace.core q.2, q.2)

theorem converted_split {pre evs : List Json} {q : List Json × Json} (h : q ∈ Trace.converted pre evs) :
    ∃ a b, evs = a ++ q.2 :: b ∧ q.1 = pre ++ a := by
  induction evs generalizing pre with
  | nil => cases h
  | cons e evs ih =>
    unfold Trace.converted at h
    rcases List.mem_append.mp h with h | h
    · split at h
      · rw [List.mem_singleton.mp h]
        exact ⟨[], evs, rfl, (List.append_nil _).symm⟩
      · cases h
    · obtain ⟨a, b, h1, h2⟩ := ih h
      exact ⟨e :: a, b, by rw [h1]; rfl, by rw [h2]; simp⟩

/-- The converted events of a core, with the past of that core. -/
theorem converted_own (c : Option (Coord × RiscType)) (evs : List Json) : ∀ pre,
    ((Trace.converted pre evs).map ownPast).filter (fun q => decide (Trace.core q.2 = c)) =
      Trace.converted (pre.filter fun e => decide (Trace.core e = c)) (evs.filter fun e => decide (Trace.core e = c)) := by
  induction evs with
  | nil => intro pre; rfl
  | cons e evs ih =>
    intro pre
    have ih' := ih (pre ++ [e])
    rw [List.filter_append] at ih'
    have hcons : ∀ p l, Trace.converted p (e :: l) = (if Trace.Converts e then [(p, e)] else []) ++ Trace.converted (p ++ [e]) l :=
      fun _ _ => rfl
    rw [hcons, List.map_append, List.filter_append, ih']
    by_cases hc : Trace.core e = c
    · subst hc
      have h1 : ∀ l : List Json, ((e :: l).filter fun x => decide (Trace.core x = Trace.core e)) =
          e :: l.filter fun x => decide (Trace.core x = Trace.core e) := fun l => List.filter_cons_of_pos (by simp)
      rw [h1, h1, hcons]
      congr 1
      split <;> simp [ownPast]
    · have h1 : ∀ l : List Json, ((e :: l).filter fun x => decide (Trace.core x = c)) =
          l.filter fun x => decide (Trace.core x = c) := fun l => List.filter_cons_of_neg (by simpa using hc)
      have h2 : ((if Trace.Converts e then [(pre, e)] else []).map ownPast).filter (fun q => decide (Trace.core q.2 = c)) = [] := by
        split <;> simp [ownPast, hc]
      rw [h1, h1, h2, List.nil_append, List.filter_nil, List.append_nil]

theorem interleaved_perm {evs evs' : List Json} (h : Trace.Interleaved evs evs') : evs'.Perm evs :=
  perm_of_keys Trace.core fun c => by convert h c

theorem converted_perm {evs evs' : List Json} (h : Trace.Interleaved evs evs') :
    ((Trace.converted [] evs').map ownPast).Perm ((Trace.converted [] evs).map ownPast) := by
  refine perm_of_keys (fun q => Trace.core q.2) fun c => ?_
  have e := (converted_own c evs' []).trans (((congrArg (Trace.converted []) (h c)).trans (converted_own c evs []).symm))
  convert e

/-- A transfer and its zones, with another number of the group. -/
def regroupZ (σ : Int → Int) (x : Trace.Item × String) : Trace.Item × String := (Trace.regroup σ x.1, x.2)

/-- The transfers of an event, without the number of the group, and whether they have one. -/
def chunk (arch : Arch) (t0 : Int) (zp : Json → String) (q : List Json × Json) : Bool × List (Trace.Item × String) :=
  ((Trace.fabric q.2).isSome, ((Trace.items arch t0 q.1 q.2).map (·, zp q.2)).map (regroupZ fun _ => 0))

/-- What an event uses of the past. -/
theorem ends_own {pre : List Json} {e : Json}
    (hr : Trace.type e ∈ Trace.readUsers → Trace.latest Trace.readSetters pre =
      Trace.latest Trace.readSetters (pre.filter fun x => Trace.core x = Trace.core e))
    (hw : Trace.type e ∈ Trace.writeUsers → Trace.latest Trace.writeSetters pre =
      Trace.latest Trace.writeSetters (pre.filter fun x => Trace.core x = Trace.core e)) :
    Trace.ends (pre.filter fun x => Trace.core x = Trace.core e) e = Trace.ends pre e := by
  unfold Trace.ends
  by_cases h1 : Trace.type e ∈ Trace.readUsers
  · simp only [if_pos h1, Trace.saved, ← hr h1]
  · by_cases h2 : Trace.type e ∈ Trace.writeUsers
    · simp only [if_neg h1, if_pos h2, Trace.saved, ← hw h2]
    · simp only [if_neg h1, if_neg h2]

theorem chunk_own (arch : Arch) (t0 : Int) (zp : Json → String) {evs : List Json} (h : Trace.OwnState evs) {q : List Json × Json}
    (hq : q ∈ Trace.converted [] evs) : chunk arch t0 zp (ownPast q) = chunk arch t0 zp q := by
  obtain ⟨a, b, h1, h2⟩ := converted_split hq
  obtain ⟨hr, hw⟩ := h a q.2 b h1
  obtain ⟨pre, e⟩ := q
  simp only [List.nil_append] at h2
  subst h2
  have he := ends_own hr hw
  simp only at he
  have hs : Trace.startup arch (pre.filter fun x => Trace.core x = Trace.core e) e = Trace.startup arch pre e := by
    unfold Trace.startup
    rw [he]
  have hd : Trace.dest (pre.filter fun x => Trace.core x = Trace.core e) e = Trace.dest pre e := by
    unfold Trace.dest
    rw [he]
  unfold chunk ownPast
  simp only
  congr 1
  unfold Trace.items
  cases Trace.fabric e with
  | none =>
    simp only [List.map_cons, List.map_nil, Trace.plain, he, hs, hd]
  | some f =>
    simp only [Trace.pathItems, he, hs, List.map_map]
    rfl

/-- Transfers with their groups numbered in order. -/
def numbered : Nat → List (Bool × List (Trace.Item × String)) → List (Trace.Item × String)
  | _, [] => []
  | n, x :: l => x.2.map (regroupZ fun _ => if x.1 then (n : Int) else -1) ++ numbered (if x.1 then n + 1 else n) l

theorem numbered_append (a b : List (Bool × List (Trace.Item × String))) : ∀ n,
    numbered n (a ++ b) = numbered n a ++ numbered (n + a.countP (·.1)) b := by
  induction a with
  | nil => intro n; rfl
  | cons x a ih =>
    intro n
    rw [List.cons_append, numbered, numbered, ih, List.append_assoc, List.countP_cons]
    congr 3
    cases x.1 <;> simp; omega

theorem numbered_ge (l : List (Bool × List (Trace.Item × String))) : ∀ n, ∀ i ∈ numbered n l, i.1.group = -1 ∨ (n : Int) ≤ i.1.group := by
  induction l with
  | nil => intro n i hi; cases hi
  | cons x l ih =>
    intro n i hi
    rw [numbered] at hi
    rcases List.mem_append.mp hi with hi | hi
    · obtain ⟨j, _, rfl⟩ := List.mem_map.mp hi
      simp only [regroupZ, Trace.regroup]
      cases x.1 <;> simp
    · have := ih _ i hi
      split at this <;> omega

theorem items_numbered (arch : Arch) (t0 : Int) (zp : Json → String) (evs : List Json) :
    ((Trace.converted [] evs).flatMap fun q => (Trace.items arch t0 q.1 q.2).map (·, zp q.2)) =
      numbered 0 ((Trace.converted [] evs).map (chunk arch t0 zp)) := by
  induction evs using List.reverseRecOn with
  | nil => rfl
  | append_singleton l e ih =>
    rw [converted_snoc, List.flatMap_append, List.map_append, numbered_append, ih]
    congr 1
    split
    · simp only [List.flatMap_cons, List.flatMap_nil, List.append_nil, List.map_cons, List.map_nil, numbered, Nat.zero_add]
      rw [List.countP_map]
      have hg : List.countP ((fun x => x.1) ∘ chunk arch t0 zp) (Trace.converted [] l) = Trace.groupsBefore l := rfl
      rw [hg]
      unfold chunk Trace.items
      simp only
      cases Trace.fabric e with
      | none => rfl
      | some f =>
        simp only [Option.isSome_some, if_true, Trace.pathItems, List.map_map]
        rfl
    · rfl

theorem regroup_regroup (σ τ : Int → Int) (i : Trace.Item × String) : regroupZ σ (regroupZ τ i) = regroupZ (σ ∘ τ) i := rfl

theorem regroup_same {σ : Int → Int} {l : List (Trace.Item × String)} (h : ∀ i ∈ l, σ i.1.group = i.1.group) : l.map (regroupZ σ) = l := by
  refine (List.map_congr_left fun i hi => ?_).trans (List.map_id l)
  unfold regroupZ Trace.regroup
  rw [h i hi]
  rfl

/-- In another order, the groups have other numbers. -/
theorem numbered_perm {a b : List (Bool × List (Trace.Item × String))} (h : a.Perm b) : ∀ n : Nat, ∃ σ : Int → Int,
    Function.Injective σ ∧ (∀ g, g < (n : Int) → σ g = g) ∧ (numbered n b).Perm ((numbered n a).map (regroupZ σ)) := by
  induction h with
  | nil => exact fun n => ⟨id, Function.injective_id, fun _ _ => rfl, .refl _⟩
  | cons x h ih =>
    intro n
    obtain ⟨σ, h1, h2, h3⟩ := ih (if x.1 then n + 1 else n)
    refine ⟨σ, h1, fun g hg => h2 g (by split <;> omega), ?_⟩
    rw [numbered, numbered, List.map_append, List.map_map]
    refine .append (.of_eq ?_) h3
    refine List.map_congr_left fun i _ => ?_
    simp only [Function.comp_apply, regroup_regroup]
    unfold regroupZ Trace.regroup
    simp only [Function.comp_apply]
    rw [h2]
    cases x.1 <;> simp
    omega
  | swap x y l =>
    intro n
    cases hx : x.1 <;> cases hy : y.1
    case true.true =>
      refine ⟨Equiv.swap (n : Int) (n + 1), Equiv.injective _, fun g hg => Equiv.swap_apply_of_ne_of_ne (by omega) (by omega), ?_⟩
      simp only [numbered, hx, hy, if_true, List.map_append, List.map_map]
      rw [← List.append_assoc, ← List.append_assoc]
      refine .append ?_ (.of_eq (regroup_same fun i hi => ?_).symm)
      · refine List.perm_append_comm.trans (.of_eq ?_)
        congr 1
        · refine List.map_congr_left fun i _ => ?_
          simp only [Function.comp_apply, regroup_regroup]
          unfold regroupZ Trace.regroup
          simp only [Function.comp_apply]
          rw [Equiv.swap_apply_left]
          rfl
        · refine List.map_congr_left fun i _ => ?_
          simp only [Function.comp_apply, regroup_regroup]
          unfold regroupZ Trace.regroup
          simp only [Function.comp_apply, Nat.cast_add, Nat.cast_one]
          rw [Equiv.swap_apply_right]
      · have := numbered_ge l (n + 1 + 1) i hi
        exact Equiv.swap_apply_of_ne_of_ne (by omega) (by omega)
    all_goals
      refine ⟨id, Function.injective_id, fun _ _ => rfl, ?_⟩
      rw [regroup_same fun _ _ => rfl]
      simp only [numbered, hx, hy, if_true, Bool.false_eq_true, if_false]
      rw [← List.append_assoc, ← List.append_assoc]
      exact .append List.perm_append_comm (.refl _)
  | trans _ _ ih1 ih2 =>
    intro n
    obtain ⟨σ, h1, h2, h3⟩ := ih1 n
    obtain ⟨τ, k1, k2, k3⟩ := ih2 n
    refine ⟨τ ∘ σ, k1.comp h1, fun g hg => ?_, k3.trans ?_⟩
    · rw [Function.comp_apply, h2 g hg, k2 g hg]
    · refine (h3.map _).trans (.of_eq ?_)
      rw [List.map_map]
      rfl

/-- The transfers of an interleaved trace. -/
theorem items_interleaved (arch : Arch) (t0 : Int) (zp : Json → String) {evs evs' : List Json} (h : Trace.Interleaved evs evs')
    (ho : Trace.OwnState evs) (ho' : Trace.OwnState evs') : ∃ σ : Int → Int,
    Function.Injective σ ∧ (∀ g, g < 0 → σ g = g) ∧
    ((Trace.converted [] evs').flatMap fun q => (Trace.items arch t0 q.1 q.2).map (·, zp q.2)).Perm
      (((Trace.converted [] evs).flatMap fun q => (Trace.items arch t0 q.1 q.2).map (·, zp q.2)).map (regroupZ σ)) := by
  rw [items_numbered, items_numbered]
  have e : ∀ l, Trace.OwnState l → (Trace.converted [] l).map (chunk arch t0 zp) = ((Trace.converted [] l).map ownPast).map (chunk arch t0 zp) := by
    intro l hl
    rw [List.map_map]
    exact List.map_congr_left fun q hq => (chunk_own arch t0 zp hl hq).symm
  rw [e _ ho, e _ ho']
  obtain ⟨σ, h1, h2, h3⟩ := numbered_perm ((converted_perm h).symm.map (chunk arch t0 zp)) 0
  exact ⟨σ, h1, h2, h3⟩

/-! ### Zones and windows -/

theorem zoneOf_core {t0 : Int} {c : Coord × RiscType} {e : Json} (h : Trace.core e ≠ some c) : Trace.zoneOf t0 c e = none := by
  cases hz : Trace.zoneOf t0 c e with
  | none => rfl
  | some z =>
    unfold Trace.zoneOf at hz
    split at hz
    · cases hz
    · split at hz
      · rename_i hc
        exact absurd hc.2.2.2 h
      · cases hz

theorem zonesOf_filter (evs : List Json) (t0 : Int) (c : Coord × RiscType) :
    Trace.zonesOf evs t0 c = Trace.zonesOf (evs.filter fun e => Trace.core e = some c) t0 c := by
  unfold Trace.zonesOf
  induction evs with
  | nil => rfl
  | cons e evs ih =>
    by_cases h : Trace.core e = some c
    · rw [List.filter_cons_of_pos (by simpa using h), List.filterMap_cons, List.filterMap_cons, ih]
    · rw [List.filter_cons_of_neg (by simpa using h), List.filterMap_cons, zoneOf_core h, ih]

theorem zonesOf_interleaved {evs evs' : List Json} (h : Trace.Interleaved evs evs') (t0 : Int) (c : Coord × RiscType) :
    Trace.zonesOf evs' t0 c = Trace.zonesOf evs t0 c := by
  rw [zonesOf_filter, h, ← zonesOf_filter]

theorem origin_unique {evs : List Json} {a b : Int} (ha : Trace.IsOrigin evs a) (hb : Trace.IsOrigin evs b) : a = b := by
  obtain ⟨⟨e, he, h1⟩, h2⟩ := ha
  obtain ⟨⟨x, hx, h3⟩, h4⟩ := hb
  have := h2 x hx
  have := h4 e he
  omega

theorem origin_mem {evs evs' : List Json} (h : ∀ e, e ∈ evs' ↔ e ∈ evs) {t : Int} (ht : Trace.IsOrigin evs t) :
    Trace.IsOrigin evs' t := by
  obtain ⟨⟨e, he, h1⟩, h2⟩ := ht
  exact ⟨⟨e, (h e).mpr he, h1⟩, fun x hx => h2 x ((h x).mp hx)⟩

theorem goldenCores_le {evs evs' : List Json} {m m' : CoreTimes} (hsub : ∀ e ∈ evs, e ∈ evs') (T : Times evs m)
    (T' : Times evs' m') {d : Int} {s r r' : Nat × Nat} (h : foldlM (goldenCore d) s m = .ok r)
    (h' : foldlM (goldenCore d) s m' = .ok r') : r'.1 ≤ r.1 ∧ r.2 ≤ r'.2 := by
  obtain ⟨_, i3, _, i6⟩ := goldenCores_ok d m h
  obtain ⟨⟨j1, j2⟩, _, ⟨j4, j5⟩, _⟩ := goldenCores_ok d m' h'
  constructor
  · rcases i3 with i3 | ⟨x, hx, hxd, hxt⟩
    · omega
    · obtain ⟨⟨e, he, hc, ht⟩, _⟩ := T.sound x hx
      rw [hxd] at hc
      obtain ⟨y, hy, hyd, hy1, _⟩ := T'.cover e (hsub e he) d hc
      have := j2 y hy hyd
      omega
  · rcases i6 with i6 | ⟨x, hx, hxd, hxt⟩
    · omega
    · obtain ⟨_, ⟨e, he, hc, ht⟩⟩ := T.sound x hx
      rw [hxd] at hc
      obtain ⟨y, hy, hyd, _, hy2⟩ := T'.cover e (hsub e he) d hc
      have := j5 y hy hyd
      omega

theorem goldenDevice_mem {evs evs' : List Json} {m m' : CoreTimes} (hmem : ∀ e, e ∈ evs' ↔ e ∈ evs) (T : Times evs m)
    (T' : Times evs' m') {t0 d : Int} {r r' : Int × Nat × Nat} (h : goldenDevice t0 m d = .ok r)
    (h' : goldenDevice t0 m' d = .ok r') : r' = r := by
  unfold goldenDevice at h h'
  rw [bind_eq_ok] at h h'
  obtain ⟨s, h1, h⟩ := h
  obtain ⟨s', h1', h'⟩ := h'
  have a := goldenCores_le (fun e he => (hmem e).mpr he) T T' h1 h1'
  have b := goldenCores_le (fun e he => (hmem e).mp he) T' T h1' h1
  have e : s' = s := Prod.ext (by omega) (by omega)
  rw [e] at h'
  exact Out.ok.inj (h'.symm.trans h)

theorem goldenDevices_mem {evs evs' : List Json} {m m' : CoreTimes} (hmem : ∀ e, e ∈ evs' ↔ e ∈ evs) (T : Times evs m)
    (T' : Times evs' m') {t0 : Int} (ds : List Int) : ∀ {r r' : GoldenMap}, Out.mapM (goldenDevice t0 m) ds = .ok r →
    Out.mapM (goldenDevice t0 m') ds = .ok r' → r' = r := by
  induction ds with
  | nil => intro r r' h h'; exact Out.ok.inj (h'.symm.trans h)
  | cons d ds ih =>
    intro r r' h h'
    rw [mapM_cons, bind_eq_ok] at h h'
    obtain ⟨x, h1, h⟩ := h
    obtain ⟨x', h1', h'⟩ := h'
    rw [bind_eq_ok] at h h'
    obtain ⟨y, h2, h⟩ := h
    obtain ⟨y', h2', h'⟩ := h'
    rw [goldenDevice_mem hmem T T' h1 h1', ih h2 h2'] at h'
    exact Out.ok.inj (h'.symm.trans h)

theorem inOrder_keys {evs evs' : List Json} (h : Trace.Interleaved evs evs') (ho : Trace.InOrder evs) : Trace.InOrder evs' := by
  have key : ∀ l : List Json, Trace.InOrder l ↔ ∀ c, (l.filter fun e => Trace.core e = c).Pairwise fun e e' => Trace.time e ≤ Trace.time e' := by
    intro l
    unfold Trace.InOrder
    constructor
    · intro hl c
      rw [List.pairwise_filter]
      refine hl.imp fun hab h1 h2 => hab ?_
      rw [of_decide_eq_true h1, of_decide_eq_true h2]
    · intro hl
      induction l with
      | nil => exact .nil
      | cons e l ih =>
        refine List.pairwise_cons.mpr ⟨fun x hx hc => ?_, ih fun c => ?_⟩
        · have := hl (Trace.core e)
          rw [List.filter_cons_of_pos (by simp)] at this
          exact (List.pairwise_cons.mp this).1 x (List.mem_filter.mpr ⟨hx, by simpa using hc.symm⟩)
        · have := hl c
          rw [List.pairwise_filter] at this ⊢
          exact (List.pairwise_cons.mp this).2
  rw [key] at ho ⊢
  intro c
  rw [h c]
  exact ho c

theorem pairs_ext {α β : Type} : ∀ {a b : List (α × β)}, a.map (·.1) = b.map (·.1) → a.map (·.2) = b.map (·.2) → a = b
  | [], [], _, _ => rfl
  | [], _ :: _, h, _ => by cases h
  | _ :: _, [], h, _ => by cases h
  | x :: a, y :: b, h1, h2 => by
    simp only [List.map_cons, List.cons.injEq] at h1 h2
    rw [pairs_ext h1.2 h2.2, Prod.ext h1.1 h2.1]

/-- The transfers of a trace with their zones. -/
theorem transfers_zoned {arch : Arch} {t0 : Int} {evs : List Json} {zones : ZoneMap} {s : ConvState}
    (hpaths : Trace.PathsComplete evs) (hord : Trace.InOrder evs) (hz : foldlM (zoneEvent t0) [] evs = .ok zones)
    (h : foldlM (convEvent arch t0 zones) {} evs = .ok s)
    (hzones : ∀ e ∈ evs, ∃ c, Trace.core e = some c ∧ Trace.zonesOf evs t0 c ≠ []) {zp : Json → String}
    (hzp : ∀ e c p, Trace.core e = some c → Trace.ZonePath evs t0 c e p → p = zp e) :
    s.transfers.map (fun t => (Trace.item t, t.zonePath)) =
      (Trace.converted [] evs).flatMap fun q => (Trace.items arch t0 q.1 q.2).map (·, zp q.2) := by
  have hi := (convEvents_ok hpaths h).items
  have hp := convEvents_paths hpaths hord hz h
  unfold Paths at hp
  refine pairs_ext ?_ ?_
  · rw [List.map_map, List.map_flatMap]
    refine Eq.trans (hi : s.transfers.map Trace.item = _) ?_
    congr 1
    funext q
    rw [List.map_map]
    exact (List.map_id _).symm
  · have e1 : ((Trace.converted [] evs).flatMap fun q => (Trace.items arch t0 q.1 q.2).map (·, zp q.2)).map (·.2) =
        ((Trace.converted [] evs).flatMap fun q => (Trace.items arch t0 q.1 q.2).map fun _ => q.2).map zp := by
      rw [List.map_flatMap, List.map_flatMap]
      congr 1
      funext q
      rw [List.map_map, List.map_map]
      rfl
    rw [List.map_map, e1]
    have hmem : ∀ e ∈ (Trace.converted [] evs).flatMap fun q => (Trace.items arch t0 q.1 q.2).map fun _ => q.2, e ∈ evs := by
      intro e he
      obtain ⟨q, hq, he⟩ := List.mem_flatMap.mp he
      obtain ⟨_, _, rfl⟩ := List.mem_map.mp he
      obtain ⟨a, b, h1, _⟩ := converted_split hq
      rw [h1]
      simp
    generalize ((Trace.converted [] evs).flatMap fun q => (Trace.items arch t0 q.1 q.2).map fun _ => q.2) = L at hp hmem
    clear hi h e1
    generalize s.transfers = ts at hp ⊢
    induction hp with
    | nil => rfl
    | cons h _ ih =>
      rename_i e t _ _ _
      rw [List.map_cons, List.map_cons, ih fun x hx => hmem x (List.mem_cons_of_mem _ hx)]
      obtain ⟨c, hc, hne⟩ := hzones e (hmem e List.mem_cons_self)
      rw [← hzp e c _ hc (h c hc hne)]
      rfl

end NPE
