import Verif.Model.Format
import Verif.Spec.Format

/-
The reader of the texts of destinations (Spec/Format.lean) gets back what was printed.
-/

namespace NPE

namespace Format

open Spec

/-- A text that does not begin with a digit. -/
def Stop (rest : List Char) : Prop := ∀ c ∈ rest.head?, c.isDigit = false

theorem digits_isDigit {n : Nat} {c : Char} (h : c ∈ Nat.toDigits 10 n) : c.isDigit = true :=
  Nat.isDigit_of_mem_toDigits (by omega) (by omega) h

theorem takeWhile_stop {rest : List Char} (h : Stop rest) : rest.takeWhile Char.isDigit = [] := by
  cases rest with
  | nil => rfl
  | cons c rest => rw [List.takeWhile_cons, h c rfl]; rfl

theorem dropWhile_stop {rest : List Char} (h : Stop rest) : rest.dropWhile Char.isDigit = rest := by
  cases rest with
  | nil => rfl
  | cons c rest => rw [List.dropWhile_cons, h c rfl]; rfl

theorem readNat_digits (n : Nat) {rest : List Char} (h : Stop rest) :
    readNat (Nat.toDigits 10 n ++ rest) = some (n, rest) := by
  unfold readNat
  rw [List.takeWhile_append_of_pos (fun c hc => digits_isDigit hc), takeWhile_stop h,
    List.dropWhile_append_of_pos (fun c hc => digits_isDigit hc), dropWhile_stop h, List.append_nil]
  cases hd : Nat.toDigits 10 n with
  | nil => exact absurd hd Nat.toDigits_ne_nil
  | cons d ds =>
    show some (Nat.ofDigitChars 10 (d :: ds) 0, rest) = _
    rw [← hd, Nat.ofDigitChars_ten_toDigits]

theorem readInt_int (i : Int) {rest : List Char} (h : Stop rest) : readInt (int i ++ rest) = some (i, rest) := by
  unfold readInt
  cases i with
  | ofNat n =>
    have hne : (int (.ofNat n) ++ rest).head? ≠ some '-' := by
      show (Nat.toDigits 10 n ++ rest).head? ≠ _
      cases hd : Nat.toDigits 10 n with
      | nil => exact absurd hd Nat.toDigits_ne_nil
      | cons d ds =>
        intro e
        have : d = '-' := Option.some.inj e
        subst this
        have := digits_isDigit (n := n) (c := '-') (by rw [hd]; exact List.mem_cons_self)
        exact absurd this (by decide)
    rw [if_neg hne]
    show (readNat (Nat.toDigits 10 n ++ rest)).map _ = _
    rw [readNat_digits n h]
    rfl
  | negSucc n =>
    rw [if_pos (show (int (Int.negSucc n) ++ rest).head? = some '-' from rfl)]
    show (readNat (Nat.toDigits 10 (n + 1) ++ rest)).map _ = _
    rw [readNat_digits _ h]
    rfl

theorem expect_append (w cs : List Char) : expect w (w ++ cs) = some cs := by
  unfold expect
  rw [List.take_left, if_pos rfl, List.drop_left]

theorem stop_cons {c : Char} {cs : List Char} (h : c.isDigit = false) : Stop (c :: cs) := by
  intro d hd
  rw [← Option.some.inj hd]
  exact h

theorem readPlace_place (r c : Int) (rest : List Char) :
    readPlace (place r c ++ rest) = some ((r, c), rest) := by
  have e : place r c ++ rest = "(".toList ++ (int r ++ (",".toList ++ (int c ++ (")".toList ++ rest)))) := by
    show ('(' :: int r ++ ',' :: int c ++ [')']) ++ rest = '(' :: (int r ++ ',' :: (int c ++ ')' :: rest))
    simp
  unfold readPlace
  rw [e, expect_append]
  simp only [Option.bind_eq_bind, Option.bind_some]
  rw [readInt_int r (rest := ",".toList ++ _) (stop_cons (c := ',') (by decide))]
  simp only [Option.bind_some]
  rw [expect_append]
  simp only [Option.bind_some]
  rw [readInt_int c (rest := ")".toList ++ _) (stop_cons (c := ')') (by decide))]
  simp only [Option.bind_some]
  rw [expect_append]
  rfl

theorem readCoord_coord (c : Coord) (rest : List Char) : readCoord (coord c ++ rest) = some (c, rest) := by
  have e : coord c ++ rest = "Dev".toList ++ (int c.dev ++ (place c.row c.col ++ rest)) := by
    show ('D' :: 'e' :: 'v' :: int c.dev ++ place c.row c.col) ++ rest = 'D' :: 'e' :: 'v' :: _
    simp
  unfold readCoord
  rw [e, expect_append]
  simp only [Option.bind_eq_bind, Option.bind_some]
  rw [readInt_int c.dev (rest := place c.row c.col ++ rest) (stop_cons (c := '(') (by decide))]
  simp only [Option.bind_some]
  rw [readPlace_place]
  rfl

theorem readGrids_grids : ∀ (gs : List CoordGrid) (fuel : Nat), gs ≠ [] → gs.length ≤ fuel →
    readGrids fuel (grids gs) = some (gs.map fun g => ⟨g.lo, ⟨g.lo.dev, g.hi.row, g.hi.col⟩⟩)
  | [], _, h, _ => absurd rfl h
  | g :: gs, 0, _, hf => absurd hf (by simp)
  | [g], fuel + 1, _, _ => by
    have e : grids [g] = coord g.lo ++ ("-".toList ++ (place g.hi.row g.hi.col ++ [])) := by
      rw [List.append_nil]; rfl
    unfold readGrids
    rw [e, readCoord_coord]
    simp only [Option.bind_eq_bind, Option.bind_some]
    rw [expect_append]
    simp only [Option.bind_some]
    rw [readPlace_place]
    rfl
  | g :: h :: gs, fuel + 1, _, hf => by
    have e : grids (g :: h :: gs) =
        coord g.lo ++ ("-".toList ++ (place g.hi.row g.hi.col ++ (", ".toList ++ grids (h :: gs)))) := by
      show (coord g.lo ++ '-' :: place g.hi.row g.hi.col) ++ ',' :: ' ' :: grids (h :: gs) =
        coord g.lo ++ '-' :: (place g.hi.row g.hi.col ++ ',' :: ' ' :: grids (h :: gs))
      simp
    unfold readGrids
    rw [e, readCoord_coord]
    simp only [Option.bind_eq_bind, Option.bind_some]
    rw [expect_append]
    simp only [Option.bind_some]
    rw [readPlace_place]
    simp only [Option.bind_some]
    rw [if_neg (show ¬ (", ".toList ++ grids (h :: gs)) = [] from List.cons_ne_nil _ _), expect_append]
    simp only [Option.bind_some]
    rw [readGrids_grids (h :: gs) fuel (List.cons_ne_nil _ _) (by simp at hf ⊢; omega)]
    rfl

theorem grids_length : ∀ gs : List CoordGrid, gs.length ≤ (grids gs).length
  | [] => Nat.le_refl _
  | [g] => by show 1 ≤ (coord g.lo ++ '-' :: place g.hi.row g.hi.col).length; simp; omega
  | g :: h :: gs => by
    have := grids_length (h :: gs)
    show (g :: h :: gs).length ≤ (grid g ++ ',' :: ' ' :: grids (h :: gs)).length
    simp only [List.length_cons, List.length_append] at this ⊢
    omega

theorem readDest_coord (c : Coord) : readDest (dest (.unicast c)) = some (.unicast c) := by
  unfold readDest
  have hne : dest (.unicast c) ≠ "(empty)".toList := by
    intro e
    have := congrArg List.head? e
    exact absurd this (show some 'D' ≠ some '(' by decide)
  have := readCoord_coord c []
  rw [List.append_nil] at this
  rw [if_neg hne, show dest (.unicast c) = coord c from rfl, this]

theorem readDest_mcast (gs : List CoordGrid) : readDest (dest (.mcast gs)) =
    some (.mcast (gs.map fun g => ⟨g.lo, ⟨g.lo.dev, g.hi.row, g.hi.col⟩⟩)) := by
  cases gs with
  | nil => unfold readDest; rw [if_pos (by rfl)]; rfl
  | cons g gs =>
    unfold readDest
    have hd : dest (.mcast (g :: gs)) = grids (g :: gs) := rfl
    obtain ⟨rest, hr⟩ : ∃ rest, grids (g :: gs) = coord g.lo ++ '-' :: rest := by
      cases gs with
      | nil => exact ⟨_, rfl⟩
      | cons h gs =>
        refine ⟨place g.hi.row g.hi.col ++ ',' :: ' ' :: grids (h :: gs), ?_⟩
        show (coord g.lo ++ '-' :: place g.hi.row g.hi.col) ++ ',' :: ' ' :: grids (h :: gs) = _
        simp
    have hne : grids (g :: gs) ≠ "(empty)".toList := by
      rw [hr]
      intro e
      have := congrArg List.head? e
      exact absurd this (show some 'D' ≠ some '(' by decide)
    rw [hd, if_neg hne]
    have h1 : readCoord (grids (g :: gs)) = some (g.lo, '-' :: rest) := by rw [hr, readCoord_coord]
    rw [h1]
    show (readGrids _ _).map Dest.mcast = _
    rw [readGrids_grids _ _ (List.cons_ne_nil _ _) (Nat.le_trans (grids_length _) (Nat.le_succ _))]
    rfl

end Format

end NPE
