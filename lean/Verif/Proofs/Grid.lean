import Verif.Model.Grid
import Verif.Spec.Grid

/-
Lemmas about the flat vectors of the grids.
-/

namespace NPE

open Spec.Grid

/-- A flat vector holds the values `f` of the places `P`, each at its own index. -/
structure Flat {κ α : Type} (P : κ → Prop) (idx : κ → Nat) (data : List α) (f : κ → α) : Prop where
  val : ∀ k, P k → data[idx k]? = some (f k)

theorem Flat.lt {κ α : Type} {P : κ → Prop} {idx : κ → Nat} {data : List α} {f : κ → α} (h : Flat P idx data f) {k : κ}
    (hk : P k) : idx k < data.length := (List.getElem?_eq_some_iff.mp (h.val k hk)).1

theorem Flat.set {κ α : Type} [DecidableEq κ] {P : κ → Prop} {idx : κ → Nat} {data : List α} {f : κ → α}
    (hi : ∀ k k', P k → P k' → idx k = idx k' → k = k') (h : Flat P idx data f) {k : κ} (hk : P k) (v : α) :
    Flat P idx (data.set (idx k) v) (fun x => if x = k then v else f x) := by
  refine ⟨fun x hx => ?_⟩
  by_cases e : x = k
  · subst e
    simp [List.getElem?_set_self (h.lt hk)]
  · rw [List.getElem?_set_ne (fun e' => e (hi x k hx hk e'.symm)), h.val x hx, if_neg e]

theorem Flat.reset {κ α : Type} {P : κ → Prop} {idx : κ → Nat} {data : List α} {f : κ → α} (h : Flat P idx data f)
    (v : α) : Flat P idx (data.map fun _ => v) (fun _ => v) :=
  ⟨fun k hk => by rw [List.getElem?_map, h.val k hk]; rfl⟩

/-- Places in row-major order. -/
theorem index_lt {rows cols r c : Nat} (hr : r < rows) (hc : c < cols) : r * cols + c < rows * cols := by
  calc r * cols + c < r * cols + cols := by omega
    _ = (r + 1) * cols := by rw [Nat.succ_mul]
    _ ≤ rows * cols := Nat.mul_le_mul_right _ hr

theorem index_inj {cols r c r' c' : Nat} (hc : c < cols) (hc' : c' < cols) (h : r * cols + c = r' * cols + c') :
    r = r' ∧ c = c' := by
  have hp : 0 < cols := by omega
  have h1 : (r * cols + c) / cols = r := by
    rw [Nat.mul_comm, Nat.mul_add_div hp, Nat.div_eq_of_lt hc, Nat.add_zero]
  have h2 : (r' * cols + c') / cols = r' := by
    rw [Nat.mul_comm, Nat.mul_add_div hp, Nat.div_eq_of_lt hc', Nat.add_zero]
  have e : r = r' := by rw [← h1, ← h2, h]
  subst e
  exact ⟨rfl, by omega⟩

/-- The places of a grid of two dimensions. -/
def Within2 (rows cols : Nat) (k : Nat × Nat) : Prop := k.1 < rows ∧ k.2 < cols

/-- The places of a grid of three dimensions. -/
def Within3 (rows cols items : Nat) (k : Nat × Nat × Nat) : Prop := k.1 < rows ∧ k.2.1 < cols ∧ k.2.2 < items

/-- A grid of two dimensions holds the values `f`. -/
structure Holds2 {α : Type} (rows cols : Nat) (g : Grid2 α) (f : Nat × Nat → α) : Prop where
  hrows : g.rows = rows
  hcols : g.cols = cols
  len : g.data.length = rows * cols
  flat : Flat (Within2 rows cols) (fun k => k.1 * cols + k.2) g.data f

theorem holds2_make {α : Type} {rows cols : Nat} (h : rows * cols < 2 ^ 64) (v : α) :
    Holds2 rows cols (Grid2.make rows cols v) (fun _ => v) := by
  refine ⟨rfl, rfl, by simp only [Grid2.make, List.length_replicate]; exact Nat.mod_eq_of_lt h, ⟨fun k hk => ?_⟩⟩
  simp only [Grid2.make]
  rw [List.getElem?_replicate, if_pos]
  rw [Nat.mod_eq_of_lt h]
  exact index_lt hk.1 hk.2

theorem Holds2.index {α : Type} {rows cols : Nat} {g : Grid2 α} {f : Nat × Nat → α} (h : rows * cols < 2 ^ 64)
    (H : Holds2 rows cols g f) {k : Nat × Nat} (hk : Within2 rows cols k) : g.index k.1 k.2 = k.1 * cols + k.2 := by
  unfold Grid2.index
  rw [H.hcols, Nat.mod_eq_of_lt]
  exact Nat.lt_trans (index_lt hk.1 hk.2) h

theorem Holds2.inb {α : Type} {rows cols : Nat} {g : Grid2 α} {f : Nat × Nat → α} (H : Holds2 rows cols g f)
    {k : Nat × Nat} (hk : Within2 rows cols k) : g.inBounds k.1 k.2 = true := by
  unfold Grid2.inBounds
  rw [H.hrows, H.hcols]
  simp [hk.1, hk.2]

theorem Holds2.read {α : Type} {rows cols : Nat} {g : Grid2 α} {f : Nat × Nat → α} (h : rows * cols < 2 ^ 64)
    (H : Holds2 rows cols g f) (b : Build) {k : Nat × Nat} (hk : Within2 rows cols k) : g.read b k.1 k.2 = .ok (f k) := by
  unfold Grid2.read
  rw [if_neg (by simp [H.inb hk]), H.index h hk, H.flat.val k hk]

theorem Holds2.write {α : Type} {rows cols : Nat} {g : Grid2 α} {f : Nat × Nat → α} (h : rows * cols < 2 ^ 64)
    (H : Holds2 rows cols g f) (b : Build) {k : Nat × Nat} (hk : Within2 rows cols k) (v : α) :
    ∃ g', g.write b k.1 k.2 v = .ok g' ∧ Holds2 rows cols g' (fun x => if x = k then v else f x) := by
  refine ⟨{ g with data := g.data.set (g.index k.1 k.2) v }, ?_, H.hrows, H.hcols, by simp [H.len], ?_⟩
  · unfold Grid2.write
    rw [if_neg (by simp [H.inb hk]), if_pos]
    rw [H.index h hk]
    exact H.flat.lt hk
  · rw [H.index h hk]
    refine H.flat.set (fun a b ha hb e => ?_) hk v
    have := index_inj ha.2 hb.2 e
    exact Prod.ext this.1 this.2

theorem Holds2.reset {α : Type} {rows cols : Nat} {g : Grid2 α} {f : Nat × Nat → α} (H : Holds2 rows cols g f) (v : α) :
    Holds2 rows cols (g.reset v) (fun _ => v) :=
  ⟨H.hrows, H.hcols, by simp [Grid2.reset, H.len], H.flat.reset v⟩

/-- A grid of three dimensions holds the values `f`. -/
structure Holds3 {α : Type} (rows cols items : Nat) (g : Grid3 α) (f : Nat × Nat × Nat → α) : Prop where
  hrows : g.rows = rows
  hcols : g.cols = cols
  hitems : g.items = items
  hrowSize : g.rowSize = cols * items % 2 ^ 64
  len : g.data.length = rows * cols * items
  flat : Flat (Within3 rows cols items) (fun k => (k.1 * cols + k.2.1) * items + k.2.2) g.data f

theorem index3_lt {rows cols items : Nat} {k : Nat × Nat × Nat} (hk : Within3 rows cols items k) :
    (k.1 * cols + k.2.1) * items + k.2.2 < rows * cols * items := index_lt (index_lt hk.1 hk.2.1) hk.2.2

theorem holds3_make {α : Type} {rows cols items : Nat} (h : rows * cols * items < 2 ^ 64) (v : α) :
    Holds3 rows cols items (Grid3.make rows cols items v) (fun _ => v) := by
  refine ⟨rfl, rfl, rfl, rfl, by simp only [Grid3.make, List.length_replicate]; exact Nat.mod_eq_of_lt h, ⟨fun k hk => ?_⟩⟩
  simp only [Grid3.make]
  rw [List.getElem?_replicate, if_pos]
  rw [Nat.mod_eq_of_lt h]
  exact index3_lt hk

theorem Holds3.index {α : Type} {rows cols items : Nat} {g : Grid3 α} {f : Nat × Nat × Nat → α}
    (h : rows * cols * items < 2 ^ 64) (H : Holds3 rows cols items g f) {k : Nat × Nat × Nat}
    (hk : Within3 rows cols items k) : g.index k.1 k.2.1 k.2.2 = (k.1 * cols + k.2.1) * items + k.2.2 := by
  have hr : 0 < rows := Nat.lt_of_le_of_lt (Nat.zero_le _) hk.1
  have hc : cols * items < 2 ^ 64 := by
    refine Nat.lt_of_le_of_lt ?_ h
    rw [Nat.mul_assoc]
    exact Nat.le_mul_of_pos_left _ hr
  have hl : (k.1 * cols + k.2.1) * items + k.2.2 < 2 ^ 64 := Nat.lt_trans (index3_lt hk) h
  have e : k.1 * (cols * items) + k.2.1 * items + k.2.2 = (k.1 * cols + k.2.1) * items + k.2.2 := by
    rw [Nat.add_mul, Nat.mul_assoc]
  unfold Grid3.index
  rw [H.hrowSize, H.hitems, Nat.mod_eq_of_lt hc, e, Nat.mod_eq_of_lt hl]

theorem Holds3.inb {α : Type} {rows cols items : Nat} {g : Grid3 α} {f : Nat × Nat × Nat → α}
    (H : Holds3 rows cols items g f) {k : Nat × Nat × Nat} (hk : Within3 rows cols items k) :
    g.inBounds k.1 k.2.1 k.2.2 = true := by
  unfold Grid3.inBounds
  rw [H.hrows, H.hcols, H.hitems]
  simp [hk.1, hk.2.1, hk.2.2]

theorem Holds3.read {α : Type} {rows cols items : Nat} {g : Grid3 α} {f : Nat × Nat × Nat → α}
    (h : rows * cols * items < 2 ^ 64) (H : Holds3 rows cols items g f) (b : Build) {k : Nat × Nat × Nat}
    (hk : Within3 rows cols items k) : g.read b k.1 k.2.1 k.2.2 = .ok (f k) := by
  unfold Grid3.read
  rw [if_neg (by simp [H.inb hk]), H.index h hk, H.flat.val k hk]

theorem Holds3.write {α : Type} {rows cols items : Nat} {g : Grid3 α} {f : Nat × Nat × Nat → α}
    (h : rows * cols * items < 2 ^ 64) (H : Holds3 rows cols items g f) (b : Build) {k : Nat × Nat × Nat}
    (hk : Within3 rows cols items k) (v : α) :
    ∃ g', g.write b k.1 k.2.1 k.2.2 v = .ok g' ∧ Holds3 rows cols items g' (fun x => if x = k then v else f x) := by
  refine ⟨{ g with data := g.data.set (g.index k.1 k.2.1 k.2.2) v }, ?_, H.hrows, H.hcols, H.hitems, H.hrowSize,
    by simp [H.len], ?_⟩
  · unfold Grid3.write
    rw [if_neg (by simp [H.inb hk]), if_pos]
    rw [H.index h hk]
    exact H.flat.lt hk
  · rw [H.index h hk]
    refine H.flat.set (fun a b ha hb e => ?_) hk v
    have e1 := index_inj ha.2.2 hb.2.2 e
    have e2 := index_inj ha.2.1 hb.2.1 e1.1
    exact Prod.ext e2.1 (Prod.ext e2.2 e1.2)

theorem Holds3.reset {α : Type} {rows cols items : Nat} {g : Grid3 α} {f : Nat × Nat × Nat → α}
    (H : Holds3 rows cols items g f) (v : α) : Holds3 rows cols items (g.reset v) (fun _ => v) :=
  ⟨H.hrows, H.hcols, H.hitems, H.hrowSize, by simp [Grid3.reset, H.len], H.flat.reset v⟩

/-- The list of a function over all places, row by row. -/
theorem flatMap_range_get {α : Type} (cols : Nat) (f : Nat → Nat → α) : ∀ rows r c, r < rows → c < cols →
    ((List.range rows).flatMap fun r => (List.range cols).map (f r))[r * cols + c]? = some (f r c)
  | 0, _, _, h, _ => absurd h (Nat.not_lt_zero _)
  | rows + 1, r, c, hr, hc => by
    rw [List.range_succ, List.flatMap_append]
    have hl : ∀ n, ((List.range n).flatMap fun r => (List.range cols).map (f r)).length = n * cols := by
      intro n
      induction n with
      | zero => simp
      | succ n ih => rw [List.range_succ, List.flatMap_append, List.length_append, ih]; simp [Nat.succ_mul]
    rcases Nat.lt_succ_iff_lt_or_eq.mp hr with h | h
    · rw [List.getElem?_append_left (by rw [hl]; exact index_lt h hc)]
      exact flatMap_range_get cols f rows r c h hc
    · subst h
      rw [List.getElem?_append_right (by rw [hl]; omega), hl]
      simp [hc]

theorem flatMap_range_len {α : Type} (cols : Nat) (f : Nat → Nat → α) (rows : Nat) :
    ((List.range rows).flatMap fun r => (List.range cols).map (f r)).length = rows * cols := by
  induction rows with
  | zero => simp
  | succ n ih => rw [List.range_succ, List.flatMap_append, List.length_append, ih]; simp [Nat.succ_mul]

theorem Holds2.order {α : Type} {rows cols : Nat} {g : Grid2 α} {f : Nat × Nat → α} (H : Holds2 rows cols g f) :
    g.data = (List.range rows).flatMap fun r => (List.range cols).map fun c => f (r, c) := by
  refine List.ext_getElem? fun i => ?_
  by_cases hi : i < rows * cols
  · have hp : 0 < cols := by
      rcases Nat.eq_zero_or_pos cols with h | h
      · rw [h] at hi; omega
      · exact h
    have hr : i / cols < rows := (Nat.div_lt_iff_lt_mul hp).mpr hi
    have hc : i % cols < cols := Nat.mod_lt _ hp
    have e : i / cols * cols + i % cols = i := by rw [Nat.mul_comm]; exact Nat.div_add_mod i cols
    have h1 := H.flat.val (i / cols, i % cols) ⟨hr, hc⟩
    have h2 := flatMap_range_get cols (fun r c => f (r, c)) rows _ _ hr hc
    simp only [e] at h1 h2
    rw [h1, h2]
  · rw [List.getElem?_eq_none (by rw [H.len]; omega), List.getElem?_eq_none]
    rw [flatMap_range_len cols (fun r c => f (r, c)) rows]
    omega

/-- A program that uses a grid of two dimensions. -/
def Grid2.uses {α : Type} (b : Build) : Grid2 α → List (Act (Nat × Nat) α) → Out (List α × Grid2 α)
  | g, [] => .ok ([], g)
  | g, .read k :: l => do
    let v ← g.read b k.1 k.2
    let r ← g.uses b l
    return (v :: r.1, r.2)
  | g, .write k v :: l => do
    let g' ← g.write b k.1 k.2 v
    g'.uses b l
  | g, .reset v :: l => (g.reset v).uses b l

/-- A program that uses a grid of three dimensions. -/
def Grid3.uses {α : Type} (b : Build) : Grid3 α → List (Act (Nat × Nat × Nat) α) → Out (List α × Grid3 α)
  | g, [] => .ok ([], g)
  | g, .read k :: l => do
    let v ← g.read b k.1 k.2.1 k.2.2
    let r ← g.uses b l
    return (v :: r.1, r.2)
  | g, .write k v :: l => do
    let g' ← g.write b k.1 k.2.1 k.2.2 v
    g'.uses b l
  | g, .reset v :: l => (g.reset v).uses b l

theorem uses2_holds {α : Type} (b : Build) {rows cols : Nat} (h : rows * cols < 2 ^ 64) :
    ∀ (l : List (Act (Nat × Nat) α)) (g : Grid2 α) (f : Nat × Nat → α), Holds2 rows cols g f →
      (∀ a ∈ l, ∀ k, a.place = some k → k.1 < rows ∧ k.2 < cols) →
      ∃ g', g.uses b l = .ok (answers f l, g') ∧ Holds2 rows cols g' (holds f l)
  | [], g, f, H, _ => ⟨g, rfl, H⟩
  | .read k :: l, g, f, H, hl => by
    have hk := hl _ List.mem_cons_self k rfl
    obtain ⟨g', e, H'⟩ := uses2_holds b h l g f H fun a ha => hl a (List.mem_cons_of_mem _ ha)
    refine ⟨g', ?_, H'⟩
    simp only [Grid2.uses]
    rw [H.read h b hk, Out.bind_ok, e, Out.bind_ok]
    rfl
  | .write k v :: l, g, f, H, hl => by
    have hk := hl _ List.mem_cons_self k rfl
    obtain ⟨g1, e1, H1⟩ := H.write h b hk v
    obtain ⟨g', e, H'⟩ := uses2_holds b h l g1 _ H1 fun a ha => hl a (List.mem_cons_of_mem _ ha)
    refine ⟨g', ?_, H'⟩
    simp only [Grid2.uses]
    rw [e1, Out.bind_ok, e]
    rfl
  | .reset v :: l, g, f, H, hl => by
    obtain ⟨g', e, H'⟩ := uses2_holds b h l _ _ (H.reset v) fun a ha => hl a (List.mem_cons_of_mem _ ha)
    exact ⟨g', e, H'⟩

theorem uses3_holds {α : Type} (b : Build) {rows cols items : Nat} (h : rows * cols * items < 2 ^ 64) :
    ∀ (l : List (Act (Nat × Nat × Nat) α)) (g : Grid3 α) (f : Nat × Nat × Nat → α), Holds3 rows cols items g f →
      (∀ a ∈ l, ∀ k, a.place = some k → k.1 < rows ∧ k.2.1 < cols ∧ k.2.2 < items) →
      ∃ g', g.uses b l = .ok (answers f l, g') ∧ Holds3 rows cols items g' (holds f l)
  | [], g, f, H, _ => ⟨g, rfl, H⟩
  | .read k :: l, g, f, H, hl => by
    have hk := hl _ List.mem_cons_self k rfl
    obtain ⟨g', e, H'⟩ := uses3_holds b h l g f H fun a ha => hl a (List.mem_cons_of_mem _ ha)
    refine ⟨g', ?_, H'⟩
    simp only [Grid3.uses]
    rw [H.read h b hk, Out.bind_ok, e, Out.bind_ok]
    rfl
  | .write k v :: l, g, f, H, hl => by
    have hk := hl _ List.mem_cons_self k rfl
    obtain ⟨g1, e1, H1⟩ := H.write h b hk v
    obtain ⟨g', e, H'⟩ := uses3_holds b h l g1 _ H1 fun a ha => hl a (List.mem_cons_of_mem _ ha)
    refine ⟨g', ?_, H'⟩
    simp only [Grid3.uses]
    rw [e1, Out.bind_ok, e]
    rfl
  | .reset v :: l, g, f, H, hl => by
    obtain ⟨g', e, H'⟩ := uses3_holds b h l _ _ (H.reset v) fun a ha => hl a (List.mem_cons_of_mem _ ha)
    exact ⟨g', e, H'⟩

theorem fillCores_holds (b : Build) {rows cols : Nat} (h : rows * cols < 2 ^ 64) (t : Nat → Nat → CoreType) :
    ∀ (es : List (Coord × CoreType)) (g : Grid2 CoreType) (f : Nat × Nat → CoreType), Holds2 rows cols g f →
      (∀ e ∈ es, (0 ≤ e.1.row ∧ e.1.row < rows) ∧ (0 ≤ e.1.col ∧ e.1.col < cols) ∧
        e.2 = t e.1.row.toNat e.1.col.toNat) → (rows : Int) ≤ 2 ^ 64 → (cols : Int) ≤ 2 ^ 64 →
      ∃ g', Out.foldlM (fun g e => g.write b (sizeT e.1.row) (sizeT e.1.col) e.2) g es = .ok g' ∧
        ∃ f', Holds2 rows cols g' f' ∧
          (∀ k, (∃ e ∈ es, e.1.row.toNat = k.1 ∧ e.1.col.toNat = k.2) ∨ f k = t k.1 k.2 → f' k = t k.1 k.2)
  | [], g, f, H, _, _, _ => ⟨g, rfl, f, H, fun k hk => by
      rcases hk with ⟨e, he, _⟩ | hk
      · cases he
      · exact hk⟩
  | e :: es, g, f, H, hs, hR, hC => by
    obtain ⟨hr, hc, ht⟩ := hs e List.mem_cons_self
    have er : sizeT e.1.row = e.1.row.toNat := by
      unfold sizeT
      rw [Int.emod_eq_of_lt hr.1 (by omega)]
    have ec : sizeT e.1.col = e.1.col.toNat := by
      unfold sizeT
      rw [Int.emod_eq_of_lt hc.1 (by omega)]
    obtain ⟨g1, e1, H1⟩ := H.write h b (k := (e.1.row.toNat, e.1.col.toNat)) ⟨by simp only; omega, by simp only; omega⟩ e.2
    obtain ⟨g', e2, f', H', hf⟩ := fillCores_holds b h t es g1 _ H1
      (fun x hx => hs x (List.mem_cons_of_mem _ hx)) hR hC
    refine ⟨g', ?_, f', H', fun k hk => hf k ?_⟩
    · rw [Out.foldlM_cons, er, ec, e1, Out.bind_ok]
      exact e2
    · rcases hk with ⟨x, hx, hk⟩ | hk
      · rcases List.mem_cons.mp hx with rfl | hx
        · refine Or.inr ?_
          have : k = (x.1.row.toNat, x.1.col.toNat) := Prod.ext hk.1.symm hk.2.symm
          rw [if_pos this, ht, this]
        · exact Or.inl ⟨x, hx, hk⟩
      · refine Or.inr ?_
        by_cases h' : k = (e.1.row.toNat, e.1.col.toNat)
        · rw [if_pos h', ht, h']
        · rw [if_neg h']
          exact hk

end NPE
