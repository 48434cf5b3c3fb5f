import Verif.Model.Timeline
import Verif.Spec.Timeline
import Verif.Proofs.Sort
import Verif.Proofs.Total
import Mathlib.Data.List.Nodup

/-
Lemmas about the timeline serializer.
-/

namespace NPE
open Spec Out

/-! ### Split regions -/

theorem chain_append {a b c : Nat} {l l' : List (Nat × Nat)} (h : Chain a b l) (h' : Chain b c l') :
    Chain a c (l ++ l') := by
  induction h with
  | nil => exact h'
  | cons hab _ ih => exact .cons hab (ih h')

theorem chain_blocks {n t : Nat} (ht : 0 < t) (k : Nat) (hk : k * t < n + t) :
    Chain 0 (min (k * t) n) ((List.range k).map fun (i : Nat) => (i * t, min ((i + 1) * t) n)) := by
  induction k with
  | zero => simpa using Chain.nil 0
  | succ k ih =>
    have e : (k + 1) * t = k * t + t := by ring
    have h := ih (by omega)
    rw [List.range_succ, List.map_append]
    have e2 : min (k * t) n = k * t := by omega
    rw [e2] at h
    refine chain_append h ?_
    simp only [List.map_cons, List.map_nil]
    exact .cons (by rw [e]; omega) (.nil _)

theorem blocks_count {n t : Nat} (ht : 0 < t) :
    ((n + t - 1) / t) * t < n + t ∧ n ≤ ((n + t - 1) / t) * t := by
  have h1 := Nat.div_add_mod (n + t - 1) t
  have h2 := Nat.mod_lt (n + t - 1) ht
  rw [Nat.mul_comm] at h1
  omega

theorem splitRegion_ok {steps : List TimestepStats} {t i : Nat} (hi : i * t < steps.length) :
    ∃ a b, steps[i * t]? = some a ∧ steps[min ((i + 1) * t) steps.length - 1]? = some b ∧
      splitRegion steps t i = .ok ⟨i * t, min ((i + 1) * t) steps.length, a.startc, b.endc⟩ := by
  have e : (i + 1) * t = i * t + t := by ring
  have h1 : min ((i + 1) * t) steps.length - 1 < steps.length := by omega
  refine ⟨steps[i * t], steps[min ((i + 1) * t) steps.length - 1], List.getElem?_eq_getElem hi,
    List.getElem?_eq_getElem h1, ?_⟩
  unfold splitRegion
  simp only
  rw [List.getElem?_eq_getElem hi, List.getElem?_eq_getElem h1]

/-- A window of a list, selected by a predicate on positions. -/
theorem filter_window {α : Type} (p : α → Bool) : ∀ (l : List α) (a b : Nat),
    (∀ (k : Nat) x, l[k]? = some x → (p x = true ↔ a ≤ k ∧ k < b)) → l.filter p = (l.drop a).take (b - a)
  | [], a, b, _ => by simp
  | x :: l, a, b, h => by
    have h0 := h 0 x rfl
    have hs : ∀ (k : Nat) y, l[k]? = some y → (p y = true ↔ a ≤ k + 1 ∧ k + 1 < b) :=
      fun k y hk => h (k + 1) y (by simpa using hk)
    cases a with
    | zero =>
      cases b with
      | zero =>
        have hp : ¬ p x = true := by rw [h0]; omega
        rw [List.filter_cons_of_neg hp, filter_window p l 0 0 (fun k y hk => by rw [hs k y hk]; omega)]
        simp
      | succ b =>
        have hp : p x = true := by rw [h0]; omega
        rw [List.filter_cons_of_pos hp, filter_window p l 0 b (fun k y hk => by rw [hs k y hk]; omega)]
        simp
    | succ a =>
      have hp : ¬ p x = true := by rw [h0]; omega
      rw [List.filter_cons_of_neg hp, filter_window p l a (b - 1) (fun k y hk => by rw [hs k y hk]; omega)]
      simp only [List.drop_succ_cons]
      congr 1
      omega

theorem contiguous_lt {l : List TimestepStats} (h : Contiguous l) : ∀ (d i : Nat) a b,
    l[i]? = some a → l[i + d + 1]? = some b → a.endc ≤ b.startc := by
  intro d
  induction d with
  | zero =>
    intro i a b ha hb
    exact (h.2 i a b ha hb).symm.le
  | succ d ih =>
    intro i a b ha hb
    have hlt : i + d + 1 < l.length := by
      have := (List.getElem?_eq_some_iff.mp hb).1
      omega
    have hc : l[i + d + 1]? = some l[i + d + 1] := List.getElem?_eq_getElem hlt
    have h1 := ih i a _ ha hc
    have h2 := h.1 _ (List.mem_of_getElem? hc)
    have h3 := h.2 (i + d + 1) _ b hc (by rw [← hb]; congr 1)
    omega

theorem contiguous_lt' {l : List TimestepStats} (h : Contiguous l) {i j : Nat} (hij : i < j) {a b : TimestepStats}
    (ha : l[i]? = some a) (hb : l[j]? = some b) : a.endc ≤ b.startc :=
  contiguous_lt h (j - i - 1) i a b ha (by rw [← hb]; congr 1; omega)

/-- In a contiguous list, the records inside of a region are those of its index range. -/
theorem contiguous_window {l : List TimestepStats} (h : Contiguous l) {i j : Nat} (hij : i < j)
    {a b : TimestepStats} (ha : l[i]? = some a) (hb : l[j - 1]? = some b) :
    l.filter (listedStep (some ⟨i, j, a.startc, b.endc⟩)) = (l.drop i).take (j - i) := by
  refine filter_window _ l i j fun k x hk => ?_
  have hx := h.1 x (List.mem_of_getElem? hk)
  have hA := h.1 a (List.mem_of_getElem? ha)
  have hB := h.1 b (List.mem_of_getElem? hb)
  simp only [listedStep, Region.fully, Bool.and_eq_true, decide_eq_true_eq]
  constructor
  · rintro ⟨h1, h2⟩
    constructor
    · by_contra hc
      have := contiguous_lt' h (by omega : k < i) hk ha
      omega
    · by_contra hc
      have := contiguous_lt' h (by omega : j - 1 < k) hb hk
      omega
  · rintro ⟨h1, h2⟩
    constructor
    · rcases Nat.lt_or_eq_of_le h1 with h1 | h1
      · have := contiguous_lt' h h1 ha hk
        omega
      · subst h1
        rw [ha] at hk
        cases hk
        exact le_refl _
    · rcases Nat.lt_or_eq_of_le (show k ≤ j - 1 by omega) with h1 | h1
      · have := contiguous_lt' h h1 hk hb
        omega
      · subst h1
        rw [hb] at hk
        cases hk
        exact le_refl _

/-! ### Groups -/

/-- The name under which each transfer is listed; `n` is the next name for an ungrouped one. -/
def keyed : Int → List TState → List (Int × TState)
  | _, [] => []
  | n, t :: ts => if Grouped t then (t.params.groupId, t) :: keyed n ts else (n, t) :: keyed (n + 1) ts

theorem foldl_groupStep : ∀ (ts : List TState) (gs : Groups),
    (ts.foldl groupStep gs).members =
      (keyed gs.dummy ts).foldl (fun l e => pushMember e.1 e.2.params.id l) gs.members ∧
    (ts.foldl groupStep gs).groupOf =
      (keyed gs.dummy ts).foldl (fun l e => setGroup e.2.params.id e.1 l) gs.groupOf
  | [], gs => ⟨rfl, rfl⟩
  | t :: ts, gs => by
    rw [List.foldl_cons]
    obtain ⟨h1, h2⟩ := foldl_groupStep ts (groupStep gs t)
    rw [h1, h2]
    have ek : keyed gs.dummy (t :: ts) =
      if Grouped t then (t.params.groupId, t) :: keyed gs.dummy ts else (gs.dummy, t) :: keyed (gs.dummy + 1) ts := rfl
    rw [ek]
    by_cases hg : Grouped t
    · have e : groupStep gs t = { gs with
          members := pushMember t.params.groupId t.params.id gs.members
          groupOf := setGroup t.params.id t.params.groupId gs.groupOf } := by
        unfold groupStep; exact if_pos hg
      rw [if_pos hg, e]
      exact ⟨rfl, rfl⟩
    · have e : groupStep gs t = {
          members := pushMember gs.dummy t.params.id gs.members
          groupOf := setGroup t.params.id gs.dummy gs.groupOf
          dummy := gs.dummy + 1 } := by
        unfold groupStep; exact if_neg hg
      rw [if_neg hg, e]
      exact ⟨rfl, rfl⟩

theorem keyed_snd : ∀ (n : Int) (ts : List TState), (keyed n ts).map (·.2) = ts
  | _, [] => rfl
  | n, t :: ts => by
    unfold keyed
    split <;> simp [keyed_snd]

theorem keyed_ge : ∀ (n : Int) (ts : List TState), ∀ e ∈ keyed n ts,
    (Grouped e.2 ∧ e.1 = e.2.params.groupId) ∨ (¬ Grouped e.2 ∧ n ≤ e.1)
  | _, [], e, he => by simp [keyed] at he
  | n, t :: ts, e, he => by
    unfold keyed at he
    split at he
    · rename_i hg
      rcases List.mem_cons.mp he with rfl | he
      · exact Or.inl ⟨hg, rfl⟩
      · exact keyed_ge n ts e he
    · rename_i hg
      rcases List.mem_cons.mp he with rfl | he
      · exact Or.inr ⟨hg, le_refl _⟩
      · rcases keyed_ge (n + 1) ts e he with h | ⟨h1, h2⟩
        · exact Or.inl h
        · exact Or.inr ⟨h1, by omega⟩

/-- Ungrouped transfers are alone under their name. -/
theorem keyed_alone : ∀ (n : Int) (ts : List TState), (∀ t ∈ ts, Grouped t → t.params.groupId < n) →
    (keyed n ts).Pairwise fun a b => a.1 = b.1 → Grouped a.2 ∧ Grouped b.2
  | _, [], _ => List.Pairwise.nil
  | n, t :: ts, h => by
    have hrest : ∀ t' ∈ ts, Grouped t' → t'.params.groupId < n := fun t' ht' => h t' (by simp [ht'])
    unfold keyed
    split
    · rename_i hg
      refine List.Pairwise.cons ?_ (keyed_alone n ts hrest)
      intro e he heq
      refine ⟨hg, ?_⟩
      rcases keyed_ge n ts e he with h1 | ⟨_, h2⟩
      · exact h1.1
      · have := h t (by simp) hg
        simp only at heq
        omega
    · rename_i hg
      refine List.Pairwise.cons ?_ (keyed_alone (n + 1) ts fun t' ht' hg' => by
        have := hrest t' ht' hg'
        omega)
      intro e he heq
      exfalso
      simp only at heq
      rcases keyed_ge (n + 1) ts e he with ⟨h1, h2⟩ | ⟨_, h2⟩
      · have hm : e.2 ∈ ts := by
          rw [← keyed_snd (n + 1) ts]
          exact List.mem_map.mpr ⟨e, he, rfl⟩
        have := hrest e.2 hm h1
        omega
      · omega

theorem pushMember_keys (g id : Int) : ∀ l : List (Int × List Int),
    (pushMember g id l).map (·.1) = if g ∈ l.map (·.1) then l.map (·.1) else l.map (·.1) ++ [g]
  | [] => by simp [pushMember]
  | e :: l => by
    unfold pushMember
    by_cases h : e.1 = g
    · rw [if_pos h]; simp [h]
    · rw [if_neg h, List.map_cons, pushMember_keys g id l]
      simp only [List.map_cons, List.mem_cons, Ne.symm h, false_or]
      split <;> simp

theorem pushMember_nodup {g id : Int} {l : List (Int × List Int)} (h : (l.map (·.1)).Nodup) :
    ((pushMember g id l).map (·.1)).Nodup := by
  rw [pushMember_keys]
  split
  · exact h
  · rename_i hg
    rw [List.nodup_append]
    refine ⟨h, by simp, ?_⟩
    intro a ha b hb
    rw [List.mem_singleton] at hb
    subst hb
    rintro rfl
    exact hg ha

/-- Membership after adding `id` to group `g`. -/
theorem mem_pushMember {g id : Int} : ∀ {l : List (Int × List Int)}, (l.map (·.1)).Nodup → ∀ {e},
    e ∈ pushMember g id l ↔ (e ∈ l ∧ e.1 ≠ g) ∨ (e.1 = g ∧
      ((∃ m, (g, m) ∈ l ∧ e.2 = m ++ [id]) ∨ (g ∉ l.map (·.1) ∧ e.2 = [id])))
  | [], _, e => by
    unfold pushMember
    constructor
    · intro h
      rw [List.mem_singleton] at h
      subst h
      exact Or.inr ⟨rfl, Or.inr ⟨by simp, rfl⟩⟩
    · rintro (⟨h, _⟩ | ⟨h1, ⟨m, hm, _⟩ | ⟨_, h2⟩⟩)
      · simp at h
      · simp at hm
      · rw [List.mem_singleton]; exact Prod.ext h1 h2
  | x :: l, hnd, e => by
    rw [List.map_cons, List.nodup_cons] at hnd
    unfold pushMember
    by_cases hx : x.1 = g
    · rw [if_pos hx, List.mem_cons]
      have hgl : ∀ y ∈ l, y.1 ≠ g := by
        intro y hy hyg
        exact hnd.1 (by rw [hx, ← hyg]; exact List.mem_map.mpr ⟨y, hy, rfl⟩)
      constructor
      · rintro (rfl | he)
        · exact Or.inr ⟨rfl, Or.inl ⟨x.2, by rw [← hx]; simp, rfl⟩⟩
        · exact Or.inl ⟨by simp [he], hgl e he⟩
      · rintro (⟨h1, h2⟩ | ⟨h1, ⟨m, hm, h2⟩ | ⟨h2, _⟩⟩)
        · rcases List.mem_cons.mp h1 with rfl | h1
          · exact absurd hx h2
          · exact Or.inr h1
        · rcases List.mem_cons.mp hm with hm | hm
          · left
            refine Prod.ext h1 ?_
            rw [h2, ← hm]
          · exact absurd rfl (hgl _ hm)
        · exact absurd (by simp [hx]) h2
    · rw [if_neg hx, List.mem_cons, mem_pushMember hnd.2]
      constructor
      · rintro (rfl | ⟨h1, h2⟩ | ⟨h1, ⟨m, hm, h2⟩ | ⟨h2, h3⟩⟩)
        · exact Or.inl ⟨by simp, hx⟩
        · exact Or.inl ⟨by simp [h1], h2⟩
        · exact Or.inr ⟨h1, Or.inl ⟨m, by simp [hm], h2⟩⟩
        · refine Or.inr ⟨h1, Or.inr ⟨?_, h3⟩⟩
          rw [List.map_cons, List.mem_cons]
          rintro (h | h)
          · exact hx h.symm
          · exact h2 h
      · rintro (⟨h1, h2⟩ | ⟨h1, ⟨m, hm, h2⟩ | ⟨h2, h3⟩⟩)
        · rcases List.mem_cons.mp h1 with rfl | h1
          · exact Or.inl rfl
          · exact Or.inr (Or.inl ⟨h1, h2⟩)
        · rcases List.mem_cons.mp hm with hm | hm
          · exact absurd (by rw [← hm]) hx
          · exact Or.inr (Or.inr ⟨h1, Or.inl ⟨m, hm, h2⟩⟩)
        · exact Or.inr (Or.inr ⟨h1, Or.inr ⟨fun h => h2 (by simp at h ⊢; exact Or.inr h), h3⟩⟩)

/-- The members of each group are the identifiers with that name, in order. -/
theorem foldl_pushMember (kv : List (Int × TState)) :
    let l := kv.foldl (fun l e => pushMember e.1 e.2.params.id l) []
    (l.map (·.1)).Nodup ∧ (∀ g, g ∈ l.map (·.1) ↔ ∃ e ∈ kv, e.1 = g) ∧
      (∀ e ∈ l, e.2 = (kv.filter fun x => decide (x.1 = e.1)).map fun x => x.2.params.id) := by
  induction kv using List.reverseRecOn with
  | nil => simp
  | append_singleton kv x ih =>
    simp only [List.foldl_append, List.foldl_cons, List.foldl_nil] at ih ⊢
    obtain ⟨h1, h2, h3⟩ := ih
    refine ⟨pushMember_nodup h1, ?_, ?_⟩
    · intro g
      rw [pushMember_keys]
      constructor
      · intro hg
        split at hg
        · obtain ⟨e, he, heg⟩ := (h2 g).mp hg
          exact ⟨e, by simp [he], heg⟩
        · rcases List.mem_append.mp hg with hg | hg
          · obtain ⟨e, he, heg⟩ := (h2 g).mp hg
            exact ⟨e, by simp [he], heg⟩
          · exact ⟨x, by simp, (List.mem_singleton.mp hg).symm⟩
      · rintro ⟨e, he, heg⟩
        rcases List.mem_append.mp he with he | he
        · have := (h2 g).mpr ⟨e, he, heg⟩
          split
          · exact this
          · exact List.mem_append.mpr (Or.inl this)
        · rw [List.mem_singleton] at he
          subst he
          subst heg
          split
          · assumption
          · simp
    · intro e he
      rw [List.filter_append, List.map_append]
      rcases (mem_pushMember h1).mp he with ⟨he, hne⟩ | ⟨heq, ⟨m, hm, hem⟩ | ⟨hnot, hem⟩⟩
      · rw [← h3 e he]
        simp [Ne.symm hne]
      · have hm' : m = _ := h3 _ hm
        rw [hem, hm', heq]
        simp
      · rw [hem]
        have : kv.filter (fun y => decide (y.1 = e.1)) = [] := by
          rw [List.filter_eq_nil_iff]
          intro y hy
          simp only [decide_eq_true_eq]
          intro hye
          exact hnot ((h2 x.1).mpr ⟨y, hy, by rw [hye, heq]⟩)
        rw [this, heq]
        simp

theorem setGroup_lookup (id g : Int) : ∀ (l : List (Int × Int)) (i : Int),
    (setGroup id g l).lookup i = if i = id then some g else l.lookup i
  | [], i => by
    unfold setGroup
    by_cases h : i = id
    · subst h; simp
    · rw [if_neg h]
      simp [List.lookup, beq_eq_false_iff_ne.mpr h]
  | e :: l, i => by
    unfold setGroup
    obtain ⟨k, v⟩ := e
    by_cases hk : k = id
    · simp only [hk, if_true]
      by_cases h : i = id
      · subst h; simp
      · simp [List.lookup_cons, beq_eq_false_iff_ne.mpr h, h]
    · simp only [if_neg hk, List.lookup_cons]
      by_cases h : i = k
      · subst h
        simp [hk]
      · simp only [beq_eq_false_iff_ne.mpr h]
        exact setGroup_lookup id g l i

theorem setGroup_mem {id g : Int} : ∀ {l : List (Int × Int)} {e}, e ∈ setGroup id g l → e = (id, g) ∨ e ∈ l
  | [], e, h => by
    unfold setGroup at h
    exact Or.inl (by simpa using h)
  | x :: l, e, h => by
    unfold setGroup at h
    split at h
    · rcases List.mem_cons.mp h with h | h
      · exact Or.inl h
      · exact Or.inr (by simp [h])
    · rcases List.mem_cons.mp h with h | h
      · exact Or.inr (by simp [h])
      · rcases setGroup_mem h with h | h
        · exact Or.inl h
        · exact Or.inr (by simp [h])

/-- With distinct identifiers, the reverse map gives the name of each transfer. -/
theorem foldl_setGroup (kv : List (Int × TState)) (hnd : (kv.map fun e => e.2.params.id).Nodup) :
    let l := kv.foldl (fun l e => setGroup e.2.params.id e.1 l) []
    (∀ e ∈ kv, l.lookup e.2.params.id = some e.1) ∧
      (∀ x ∈ l, ∃ e ∈ kv, x = (e.2.params.id, e.1)) := by
  induction kv using List.reverseRecOn with
  | nil => simp
  | append_singleton kv x ih =>
    simp only [List.foldl_append, List.foldl_cons, List.foldl_nil, List.map_append, List.map_cons,
      List.map_nil] at ih hnd ⊢
    rw [List.nodup_append] at hnd
    obtain ⟨h1, h2⟩ := ih hnd.1
    constructor
    · intro e he
      rw [setGroup_lookup]
      rcases List.mem_append.mp he with he | he
      · have hne : e.2.params.id ≠ x.2.params.id :=
          hnd.2.2 _ (List.mem_map.mpr ⟨e, he, rfl⟩) _ (by simp)
        rw [if_neg hne]
        exact h1 e he
      · rw [List.mem_singleton] at he
        subst he
        rw [if_pos rfl]
    · intro y hy
      rcases setGroup_mem hy with h | h
      · exact ⟨x, by simp, h⟩
      · obtain ⟨e, he, hye⟩ := h2 y h
        exact ⟨e, by simp [he], hye⟩

theorem ids_nodup {ts : List TState} (h : IdsArePositions ts) : (ts.map fun t => t.params.id).Nodup := by
  rw [List.nodup_iff_getElem?_ne_getElem?]
  intro i j hij hj
  rw [List.length_map] at hj
  have hi : i < ts.length := by omega
  rw [List.getElem?_map, List.getElem?_map, List.getElem?_eq_getElem hi, List.getElem?_eq_getElem hj]
  have a := h i _ (List.getElem?_eq_getElem hi)
  have b := h j _ (List.getElem?_eq_getElem hj)
  simp only [Option.map_some, ne_eq, Option.some.injEq]
  omega

theorem stateAt_ok {ts : List TState} (h : IdsArePositions ts) {t : TState} (ht : t ∈ ts) :
    stateAt ts t.params.id = .ok t := by
  obtain ⟨i, hi⟩ := List.mem_iff_getElem?.mp ht
  have e := h i t hi
  unfold stateAt
  rw [if_neg (by omega), e, Int.toNat_natCast, hi]

/-! ### Checks -/

theorem foldlM_insertNew {α : Type} (f : List Int → α → Out (List Int)) (key : α → Int)
    (hf : ∀ s a, f s a = insertNew s (key a)) : ∀ (l : List α) (s : List Int),
    (l.map key).Nodup → (∀ a ∈ l, key a ∉ s) → foldlM f s l = .ok ((l.map key).reverse ++ s)
  | [], s, _, _ => rfl
  | a :: l, s, hnd, hs => by
    rw [List.map_cons, List.nodup_cons] at hnd
    rw [foldlM_cons, hf]
    unfold insertNew
    simp only [hs a (by simp), not_false_eq_true, decide_true, assert_true, bind_ok, pure_eq]
    rw [foldlM_insertNew f key hf l _ hnd.2 ?_]
    · simp
    · intro b hb hmem
      rcases List.mem_cons.mp hmem with h | h
      · exact hnd.1 (by rw [← h]; exact List.mem_map.mpr ⟨b, hb, rfl⟩)
      · exact hs b (by simp [hb]) h

/-- The members and names of the transfers of a workload. -/
structure GroupsOk (n : Nat) (ts : List TState) (gs : Groups) : Prop where
  nodup : (gs.members.map (·.1)).Nodup
  keys : ∀ g, g ∈ gs.members.map (·.1) ↔ ∃ e ∈ keyed n ts, e.1 = g
  mem : ∀ e ∈ gs.members, e.2 = ((keyed n ts).filter fun x => decide (x.1 = e.1)).map fun x => x.2.params.id
  name : ∀ e ∈ keyed n ts, gs.groupOf.lookup e.2.params.id = some e.1
  named : ∀ x ∈ gs.groupOf, ∃ e ∈ keyed n ts, x = (e.2.params.id, e.1)

theorem keyed_ids (n : Int) (ts : List TState) :
    (keyed n ts).map (fun e => e.2.params.id) = ts.map fun t => t.params.id := by
  have := congrArg (List.map fun t : TState => t.params.id) (keyed_snd n ts)
  rwa [List.map_map] at this

theorem timelineGroups_ok {wl : Workload} {ts : List TState} (h : IdsArePositions ts) :
    GroupsOk wl.numTransferGroups ts (timelineGroups wl ts) := by
  obtain ⟨h1, h2⟩ := foldl_groupStep ts { dummy := wl.numTransferGroups }
  obtain ⟨a1, a2, a3⟩ := foldl_pushMember (keyed wl.numTransferGroups ts)
  obtain ⟨b1, b2⟩ := foldl_setGroup (keyed wl.numTransferGroups ts) (by rw [keyed_ids]; exact ids_nodup h)
  refine ⟨?_, ?_, ?_, ?_, ?_⟩
  · unfold timelineGroups; rw [h1]; exact a1
  · unfold timelineGroups; rw [h1]; exact a2
  · unfold timelineGroups; rw [h1]; exact a3
  · unfold timelineGroups; rw [h2]; exact b1
  · unfold timelineGroups; rw [h2]; exact b2

theorem lookup_member {l : List (Int × List Int)} (hnd : (l.map (·.1)).Nodup) {e : Int × List Int} (he : e ∈ l) :
    l.lookup e.1 = some e.2 := by
  induction l with
  | nil => simp at he
  | cons x l ih =>
    rw [List.map_cons, List.nodup_cons] at hnd
    rcases List.mem_cons.mp he with rfl | he
    · rw [show e = (e.1, e.2) from rfl, List.lookup_cons_self]
    · have hne : e.1 ≠ x.1 := fun h => hnd.1 (by rw [← h]; exact List.mem_map.mpr ⟨e, he, rfl⟩)
      rw [show x = (x.1, x.2) from rfl, List.lookup_cons, beq_eq_false_iff_ne.mpr hne]
      exact ih hnd.2 he

theorem checkGroup_ok {wl : Workload} {gs : Groups} {all : List Int} {e : Int × List Int} (hnd : e.2.Nodup)
    (hname : ∀ id ∈ e.2, gs.groupOf.lookup id = some e.1) (hall : ∀ id ∈ e.2, id ∉ all)
    (hlen : e.1 < wl.numTransferGroups ∨ e.2.length = 1) :
    checkGroup wl gs all e = .ok (e.2.reverse ++ all) := by
  unfold checkGroup
  have h1 : foldlM insertNew [] e.2 = .ok ((e.2.map id).reverse ++ []) :=
    foldlM_insertNew insertNew id (fun _ _ => rfl) _ _ (by simpa using hnd) (by simp)
  rw [h1, bind_ok]
  have h2 : ∀ (l : List Int) (all : List Int), l.Nodup → (∀ id ∈ l, gs.groupOf.lookup id = some e.1) →
      (∀ id ∈ l, id ∉ all) → foldlM (checkMember gs e.1) all l = .ok (l.reverse ++ all) := by
    intro l
    induction l with
    | nil => intro all _ _ _; rfl
    | cons a l ih =>
      intro all hnd hname hall
      rw [List.nodup_cons] at hnd
      have e1 : checkMember gs e.1 all a = .ok (a :: all) := by
        unfold checkMember insertNew
        rw [hname a (by simp)]
        simp only [decide_true, assert_true, bind_ok, hall a (by simp), not_false_eq_true, pure_eq]
      rw [foldlM_cons, e1, bind_ok, ih (a :: all) hnd.2 (fun id hid => hname id (by simp [hid])) ?_]
      · simp
      · intro id hid hmem
        rcases List.mem_cons.mp hmem with h | h
        · exact hnd.1 (h ▸ hid)
        · exact hall id (by simp [hid]) h
  rw [h2 e.2 all hnd hname hall, bind_ok]
  have h3 : (decide (e.1 < (wl.numTransferGroups : Int)) || decide (e.2.length = 1)) = true := by
    rcases hlen with h | h
    · simp [h]
    · simp [h]
  rw [h3, assert_true]
  rfl

theorem keyed_single {n : Nat} {ts : List TState} (hr : Registered n ts) {x : Int × TState}
    (hx : x ∈ keyed n ts) (hg : ¬ Grouped x.2) : (keyed n ts).filter (fun y => decide (y.1 = x.1)) = [x] := by
  have hpw := keyed_alone (n : Int) ts hr
  have key : ∀ l : List (Int × TState), l.Pairwise (fun a b => a.1 = b.1 → Grouped a.2 ∧ Grouped b.2) →
      x ∈ l → l.filter (fun y => decide (y.1 = x.1)) = [x] := by
    intro l
    induction l with
    | nil => intro _ h; simp at h
    | cons a l ih =>
      intro hpw h
      rw [List.pairwise_cons] at hpw
      rcases List.mem_cons.mp h with rfl | h
      · rw [List.filter_cons_of_pos (by simp)]
        have : l.filter (fun y => decide (y.1 = x.1)) = [] := by
          rw [List.filter_eq_nil_iff]
          intro y hy hpy
          simp only [decide_eq_true_eq] at hpy
          exact hg (hpw.1 y hy hpy.symm).1
        rw [this]
      · rw [List.filter_cons_of_neg ?_]
        · exact ih hpw.2 h
        · intro ha
          simp only [decide_eq_true_eq] at ha
          exact hg (hpw.1 x h ha).2
  exact key _ hpw hx

/-- The checks of the serializer succeed for registered groups. -/
theorem checkGroups_ok {wl : Workload} {ts : List TState} (h : IdsArePositions ts)
    (hr : Registered wl.numTransferGroups ts) : checkGroups wl (timelineGroups wl ts) = .ok () := by
  have hg := timelineGroups_ok (wl := wl) h
  have hnd := ids_nodup h
  rw [← keyed_ids wl.numTransferGroups] at hnd
  unfold checkGroups
  have hmemids : ∀ e ∈ (timelineGroups wl ts).members, ∀ id ∈ e.2,
      (timelineGroups wl ts).groupOf.lookup id = some e.1 := by
    intro e he id hid
    rw [hg.mem e he] at hid
    obtain ⟨x, hx, rfl⟩ := List.mem_map.mp hid
    rw [List.mem_filter] at hx
    rw [hg.name x hx.1]
    simpa using hx.2
  have h1 : ∀ (l : List (Int × List Int)) (all : List Int), (∀ e ∈ l, e ∈ (timelineGroups wl ts).members) →
      (l.map (·.1)).Nodup → (∀ id ∈ all, ∀ e ∈ l, id ∉ e.2) →
      ∃ r, foldlM (checkGroup wl (timelineGroups wl ts)) all l = .ok r := by
    intro l
    induction l with
    | nil => intro all _ _ _; exact ⟨all, rfl⟩
    | cons e l ih =>
      intro all hsub hk hall
      rw [List.map_cons, List.nodup_cons] at hk
      have he := hsub e (by simp)
      have hne : e.2.Nodup := by
        rw [hg.mem e he]
        exact ((List.filter_sublist (l := keyed wl.numTransferGroups ts)).map _).nodup hnd
      rw [foldlM_cons, checkGroup_ok hne (hmemids e he) (fun id hid ha => hall id ha e (by simp) hid) ?_, bind_ok]
      · refine ih _ (fun x hx => hsub x (by simp [hx])) hk.2 ?_
        intro id hid x hx hidx
        rcases List.mem_append.mp hid with hid | hid
        · rw [List.mem_reverse] at hid
          have a := hmemids e he id hid
          have b := hmemids x (hsub x (by simp [hx])) id hidx
          rw [a] at b
          have : e.1 = x.1 := Option.some.inj b
          exact hk.1 (by rw [this]; exact List.mem_map.mpr ⟨x, hx, rfl⟩)
        · exact hall id hid x (by simp [hx]) hidx
      · by_cases hlt : e.1 < wl.numTransferGroups
        · exact Or.inl hlt
        · right
          obtain ⟨x, hx, hxe⟩ := (hg.keys e.1).mp (List.mem_map.mpr ⟨e, he, rfl⟩)
          have hng : ¬ Grouped x.2 := by
            intro hgx
            rcases keyed_ge _ _ x hx with ⟨_, h2⟩ | ⟨h1, _⟩
            · have hm : x.2 ∈ ts := by
                rw [← keyed_snd (wl.numTransferGroups : Int) ts]
                exact List.mem_map.mpr ⟨x, hx, rfl⟩
              have := hr x.2 hm hgx
              omega
            · exact h1 hgx
          rw [hg.mem e he, ← hxe, keyed_single hr hx hng]
          rfl
  obtain ⟨r, hr1⟩ := h1 _ [] (fun _ h => h) hg.nodup (by simp)
  rw [hr1, bind_ok]
  have h2 : ∃ u, Out.mapM (checkGroupOf (timelineGroups wl ts)) (timelineGroups wl ts).groupOf = .ok u := by
    refine Out.mapM_total fun x hx => ⟨(), ?_⟩
    obtain ⟨e, he, rfl⟩ := hg.named x hx
    obtain ⟨y, hy, hye⟩ := List.mem_map.mp ((hg.keys e.1).mpr ⟨e, he, rfl⟩)
    unfold checkGroupOf
    simp only
    rw [← hye, lookup_member hg.nodup hy]
    simp only
    have : e.2.params.id ∈ y.2 := by
      rw [hg.mem y hy]
      exact List.mem_map.mpr ⟨e, List.mem_filter.mpr ⟨he, by simp [hye]⟩, rfl⟩
    simp only [this, decide_true, assert_true]
  obtain ⟨u, hu⟩ := h2
  rw [hu]
  rfl

/-! ### Documents -/

/-- The transfers listed under one name, in order of their index. -/
def partOf (n : Nat) (ts : List TState) (e : Int × List Int) : Int × List TState :=
  (e.1, sortBy (fun a b => decide (a.params.groupIdx ≤ b.params.groupIdx))
    (((keyed n ts).filter fun x => decide (x.1 = e.1)).map (·.2)))

theorem keyed_mem {n : Int} {ts : List TState} {x : Int × TState} (h : x ∈ keyed n ts) : x.2 ∈ ts := by
  rw [← keyed_snd n ts]
  exact List.mem_map.mpr ⟨x, h, rfl⟩

theorem components_ok {wl : Workload} {ts : List TState} (h : IdsArePositions ts) {e : Int × List Int}
    (he : e ∈ (timelineGroups wl ts).members) :
    components ts e.2 = .ok (partOf wl.numTransferGroups ts e).2 := by
  have hg := timelineGroups_ok (wl := wl) h
  unfold components
  have h1 : Out.mapM (stateAt ts) e.2 = .ok (((keyed wl.numTransferGroups ts).filter fun x =>
      decide (x.1 = e.1)).map (·.2)) := by
    rw [Out.mapM_eq_ok, hg.mem e he, List.forall₂_map_left_iff, List.forall₂_map_right_iff, List.forall₂_same]
    intro x hx
    exact stateAt_ok h (keyed_mem (List.mem_filter.mp hx).1)
  rw [h1]
  rfl

theorem partOf_nonempty {wl : Workload} {ts : List TState} (h : IdsArePositions ts) {e : Int × List Int}
    (he : e ∈ (timelineGroups wl ts).members) : (partOf wl.numTransferGroups ts e).2 ≠ [] := by
  have hg := timelineGroups_ok (wl := wl) h
  obtain ⟨x, hx, hxe⟩ := (hg.keys e.1).mp (List.mem_map.mpr ⟨e, he, rfl⟩)
  have hm : x.2 ∈ (partOf wl.numTransferGroups ts e).2 := by
    unfold partOf
    rw [(sortBy_perm _ _).mem_iff]
    exact List.mem_map.mpr ⟨x, List.mem_filter.mpr ⟨hx, by simp [hxe]⟩, rfl⟩
  exact List.ne_nil_of_mem hm

theorem mem_partOf {n : Nat} {ts : List TState} {e : Int × List Int} {t : TState} :
    t ∈ (partOf n ts e).2 ↔ (e.1, t) ∈ keyed n ts := by
  unfold partOf
  rw [(sortBy_perm _ _).mem_iff, List.mem_map]
  constructor
  · rintro ⟨x, hx, rfl⟩
    rw [List.mem_filter] at hx
    have : x.1 = e.1 := by simpa using hx.2
    rw [← this]
    exact hx.1
  · intro hx
    exact ⟨_, List.mem_filter.mpr ⟨hx, by simp⟩, rfl⟩

/-- Splitting a list by names that cover all of its elements. -/
theorem flatMap_filter_perm {α : Type} (f : α → Int) : ∀ (names : List Int) (l : List α), names.Nodup →
    (∀ x ∈ l, f x ∈ names) → (names.flatMap fun g => l.filter fun x => decide (f x = g)).Perm l
  | [], l, _, h => by
    cases l with
    | nil => exact List.Perm.refl _
    | cons x l => simpa using h x (by simp)
  | g :: names, l, hnd, h => by
    rw [List.nodup_cons] at hnd
    rw [List.flatMap_cons]
    have h1 := flatMap_filter_perm f names (l.filter fun x => !decide (f x = g)) hnd.2 (by
      intro x hx
      rw [List.mem_filter] at hx
      rcases List.mem_cons.mp (h x hx.1) with h | h
      · simp [h] at hx
      · exact h)
    have h2 : names.flatMap (fun g' => (l.filter fun x => !decide (f x = g)).filter fun x => decide (f x = g')) =
        names.flatMap fun g' => l.filter fun x => decide (f x = g') := by
      refine List.flatMap_congr fun g' hg' => ?_
      rw [List.filter_filter]
      refine List.filter_congr fun x _ => ?_
      by_cases hx : f x = g'
      · have hne : f x ≠ g := by rintro rfl; exact hnd.1 (hx ▸ hg')
        simp [hx]
        rintro rfl
        exact hne hx
      · simp [hx]
    rw [h2] at h1
    exact (List.Perm.append_left _ h1).trans (List.filter_append_perm _ _)

/-- The checks bound the size of the groups that are not registered. -/
theorem checkGroups_single {wl : Workload} {gs : Groups} (h : checkGroups wl gs = .ok ()) :
    ∀ e ∈ gs.members, e.1 < wl.numTransferGroups ∨ e.2.length = 1 := by
  unfold checkGroups at h
  obtain ⟨r, h, _⟩ := bind_eq_ok.mp h
  have key : ∀ (l : List (Int × List Int)) (all r : List Int), foldlM (checkGroup wl gs) all l = .ok r →
      ∀ e ∈ l, e.1 < wl.numTransferGroups ∨ e.2.length = 1 := by
    intro l
    induction l with
    | nil => intro _ _ _ e he; simp at he
    | cons a l ih =>
      intro all r h e he
      rw [foldlM_cons] at h
      obtain ⟨all', h1, h⟩ := bind_eq_ok.mp h
      rcases List.mem_cons.mp he with rfl | he
      · unfold checkGroup at h1
        obtain ⟨_, _, h1⟩ := bind_eq_ok.mp h1
        obtain ⟨_, _, h1⟩ := bind_eq_ok.mp h1
        obtain ⟨_, h1, _⟩ := bind_eq_ok.mp h1
        have := assert_eq_ok.mp h1
        simpa using this
      · exact ih _ _ h e he
  exact key _ _ _ h

theorem parts_division {wl : Workload} {ts : List TState} (h : IdsArePositions ts)
    (hc : checkGroups wl (timelineGroups wl ts) = .ok ()) {es : List (Int × List Int)}
    (hes : es.Perm (timelineGroups wl ts).members) : Division ts (es.map (partOf wl.numTransferGroups ts)) := by
  have hg := timelineGroups_ok (wl := wl) h
  have hnames : (es.map (·.1)).Perm ((timelineGroups wl ts).members.map (·.1)) := hes.map _
  have hnd : (es.map (·.1)).Nodup := hnames.nodup_iff.mpr hg.nodup
  refine ⟨?_, ?_, ?_, ?_, ?_, ?_⟩
  · rw [List.flatMap_map]
    have h1 : (es.flatMap fun e => (partOf wl.numTransferGroups ts e).2).Perm
        (es.flatMap fun e => ((keyed wl.numTransferGroups ts).filter fun x => decide (x.1 = e.1)).map (·.2)) := by
      refine List.Perm.flatMap_left _ fun e _ => ?_
      exact sortBy_perm _ _
    refine h1.trans ?_
    have h2 := (flatMap_filter_perm (fun x : Int × TState => x.1) (es.map (·.1)) (keyed wl.numTransferGroups ts)
      hnd (fun x hx => hnames.mem_iff.mpr ((hg.keys x.1).mpr ⟨x, hx, rfl⟩))).map (·.2)
    rw [keyed_snd, List.map_flatMap, List.flatMap_map] at h2
    exact h2
  · rw [List.map_map]
    exact hnd
  · intro p hp
    obtain ⟨e, he, rfl⟩ := List.mem_map.mp hp
    exact partOf_nonempty h (hes.mem_iff.mp he)
  · intro p hp t ht hgr
    obtain ⟨e, he, rfl⟩ := List.mem_map.mp hp
    rw [mem_partOf] at ht
    rcases keyed_ge _ _ _ ht with ⟨_, h2⟩ | ⟨h1, _⟩
    · exact h2
    · exact absurd hgr h1
  · intro p hp t ht hgr
    obtain ⟨e, he, rfl⟩ := List.mem_map.mp hp
    have ht' := ht
    rw [mem_partOf] at ht
    have hm := hes.mem_iff.mp he
    have hlen : (partOf wl.numTransferGroups ts e).2.length = e.2.length := by
      unfold partOf
      rw [(sortBy_perm _ _).length_eq, hg.mem e hm, List.length_map, List.length_map]
    rcases checkGroups_single hc e hm with h1 | h1
    · rcases keyed_ge _ _ _ ht with ⟨h2, _⟩ | ⟨_, h2⟩
      · exact absurd h2 hgr
      · simp only at h2; omega
    · rw [h1] at hlen
      obtain ⟨x, hx⟩ := List.length_eq_one_iff.mp hlen
      rw [hx, List.mem_singleton] at ht'
      rw [hx, ht']
  · intro p hp
    obtain ⟨e, he, rfl⟩ := List.mem_map.mp hp
    have := sortBy_pairwise (le := fun a b : TState => decide (a.params.groupIdx ≤ b.params.groupIdx))
      (by intro a b hab; simp only [decide_eq_false_iff_not, decide_eq_true_eq] at *; omega)
      (by intro a b c hab hbc; simp only [decide_eq_true_eq] at *; omega)
      (((keyed wl.numTransferGroups ts).filter fun x => decide (x.1 = e.1)).map (·.2))
    refine this.imp ?_
    intro a b hab
    simpa using hab

theorem segmentOf_ok {dev : Device} {t : TState} {sg : Segment} (h : segmentOf dev t = .ok sg) :
    ∃ dst attrs, destinationList dev t.params.dst = .ok dst ∧ Out.mapM dev.getLinkAttributes t.route = .ok attrs ∧
      sg = {
        src := t.params.src
        dst := dst
        noc := t.params.noc
        injectionRate := t.params.injectionRate
        startc := t.start
        endc := t.endc
        links := (t.params.src, .entry t.params.noc) ::
          (attrs.map fun a => (a.coord, HopKind.link a.type)) ++
          dst.map fun c => (c, HopKind.exit t.params.noc) } := by
  unfold segmentOf at h
  obtain ⟨dst, h1, h⟩ := bind_eq_ok.mp h
  obtain ⟨attrs, h2, h⟩ := bind_eq_ok.mp h
  exact ⟨dst, attrs, h1, h2, (Out.ok.inj h).symm⟩

/-- What is written for one name. -/
theorem emitGroup_ok {dev : Device} {wl : Workload} {ts : List TState} (h : IdsArePositions ts)
    {region : Option Region} {e : Int × List Int} (he : e ∈ (timelineGroups wl ts).members)
    {out : List LogicalTransfer} (hout : emitGroup dev ts region e = .ok out) :
    ∃ first last, (partOf wl.numTransferGroups ts e).2.head? = some first ∧
      (partOf wl.numTransferGroups ts e).2.getLast? = some last ∧
      ((listed region first last = false ∧ out = []) ∨
        (listed region first last = true ∧ ∃ dst route, destinationList dev last.params.dst = .ok dst ∧
          List.Forall₂ (fun t sg => segmentOf dev t = .ok sg) (partOf wl.numTransferGroups ts e).2 route ∧
          out = [{
            id := e.1
            src := first.params.src
            totalBytes := first.params.totalBytes
            startc := first.start
            eventType := first.params.eventType
            fabric := isFabricTransferType first.params.eventType
            zones := first.params.zonePath
            endc := last.endc
            dst := dst
            route := route }])) := by
  unfold emitGroup at hout
  obtain ⟨_, _, hout⟩ := bind_eq_ok.mp hout
  obtain ⟨comps, hc, hout⟩ := bind_eq_ok.mp hout
  rw [components_ok h he] at hc
  have hc := Out.ok.inj hc
  subst hc
  split at hout
  · rename_i first last h1 h2
    refine ⟨first, last, h1, h2, ?_⟩
    split at hout
    · rename_i hl
      obtain ⟨dst, hd, hout⟩ := bind_eq_ok.mp hout
      obtain ⟨route, hroute, hout⟩ := bind_eq_ok.mp hout
      exact Or.inr ⟨hl, dst, route, hd, Out.mapM_eq_ok.mp hroute, (Out.ok.inj hout).symm⟩
    · rename_i hl
      exact Or.inl ⟨by simpa using hl, (Out.ok.inj hout).symm⟩
  · simp at hout

end NPE
