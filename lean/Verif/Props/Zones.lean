import Verif.Proofs.Zones

/-
Properties C47 and C65: the zone iterator and the zones of a timeline file.
-/

namespace NPE.Props
open Spec Out

/-! ### C47: the iterator -/

/-- C47.  After any number of steps the stack of the iterator is the list of zones still open: the walk
over a prefix succeeds with stack `st` exactly when the prefix is a nesting in which the zones `st` are
open.  So the walk succeeds exactly when every end in the prefix matches. -/
theorem C47_stack (zs : List Zone) (n : Nat) (hn : n ≤ zs.length) (st : List (Zone × Nat)) :
    (∃ it, walk zs n = .ok it ∧ it.stack = st) ↔ Opening (zs.take n) st := by
  constructor
  · rintro ⟨it, h, rfl⟩
    exact (walked n it hn h).stack
  · intro h
    obtain ⟨it, h1, h2, _⟩ := walk_opening h zs (zs.drop n) (List.take_append_drop n zs).symm
    rw [List.length_take, Nat.min_eq_left hn] at h1
    exact ⟨it, h1, h2⟩

/-- The walk never does anything but succeed or fail with the assertion of the iterator. -/
theorem C47_failure (zs : List Zone) (n : Nat) : (∃ it, walk zs n = .ok it) ∨ walk zs n = .exc .undef := by
  induction n with
  | zero => exact Or.inl ⟨_, rfl⟩
  | succ n ih =>
    show (∃ it, (walk zs n >>= fun it => it.next zs) = .ok it) ∨ (walk zs n >>= fun it => it.next zs) = .exc .undef
    rcases ih with ⟨it, h⟩ | h
    · rw [h, bind_ok]
      unfold ZoneIter.next
      repeat' split
      all_goals first | exact Or.inl ⟨_, rfl⟩ | exact Or.inr rfl
    · rw [h]; exact Or.inr rfl

/-- The open zones of a nesting are determined. -/
theorem C47_unique {zs : List Zone} {a b : List (Zone × Nat)} (ha : Opening zs a) (hb : Opening zs b) : a = b := by
  have e : zs.take zs.length = zs := List.take_length
  obtain ⟨x, hx, rfl⟩ := (C47_stack zs zs.length (le_refl _) a).mpr (by rw [e]; exact ha)
  obtain ⟨y, hy, rfl⟩ := (C47_stack zs zs.length (le_refl _) b).mpr (by rw [e]; exact hb)
  rw [hx] at hy
  rw [Out.ok.inj hy]

/-- All zones are closed at the end exactly when the events are those of a forest. -/
theorem C47_closed (zs : List Zone) :
    (∃ it, walk zs zs.length = .ok it ∧ it.stack = []) ↔ ∃ f : Forest, f.events = zs := by
  rw [C47_stack zs zs.length (le_refl _) [], List.take_length]
  constructor
  · intro h
    generalize hst : ([] : List (Zone × Nat)) = st at h
    cases h with
    | closed f => exact ⟨f, rfl⟩
    | opened s f _ _ => simp at hst
  · rintro ⟨f, rfl⟩
    exact .closed f

/-- Zones for the examples: `a` holds two rounds of `b` and another `a`. -/
def nested : Forest :=
  .cons "a" 0 100 (.cons "b" 10 20 .nil (.cons "b" 30 60 (.cons "a" 40 50 .nil .nil) .nil)) (.cons "a" 110 120 .nil .nil)

example : Opening (nested.events.take 5) [(⟨0, "a", .zoneStart⟩, 0), (⟨30, "b", .zoneStart⟩, 1), (⟨40, "a", .zoneStart⟩, 1)] :=
  .opened (pre := nested.events.take 4) (st := [(⟨0, "a", .zoneStart⟩, 0), (⟨30, "b", .zoneStart⟩, 1)]) ⟨40, "a", .zoneStart⟩ .nil
    (.opened (pre := nested.events.take 3) (st := [(⟨0, "a", .zoneStart⟩, 0)]) ⟨30, "b", .zoneStart⟩ .nil
      (.opened (pre := []) (st := []) ⟨0, "a", .zoneStart⟩ (.cons "b" 10 20 .nil .nil) (.closed .nil) rfl) rfl) rfl

example : ∃ it, walk nested.events 5 = .ok it ∧
    it.stack = [(⟨0, "a", .zoneStart⟩, 0), (⟨30, "b", .zoneStart⟩, 1), (⟨40, "a", .zoneStart⟩, 1)] :=
  ⟨_, rfl, by decide⟩

/-- An end that does not match is refused. -/
example : walk [⟨0, "a", .zoneStart⟩, ⟨1, "b", .zoneStart⟩, ⟨2, "a", .zoneEnd⟩] 3 = .exc .undef := rfl

/-! ### C65: the zones of a timeline file -/

/-- C65, full document.  If no zone has the name and the start of a zone around it, the file lists every
zone with its start and end, inside of the zone it was in, in the order of the starts, and labelled with
its name and the number of earlier zones of that name. -/
theorem C65_document_partial (f : Forest) (hc : f.NoClash) :
    emitZones none f.events = .ok (f.document fun _ => 0) := by
  obtain ⟨d, h, S, _⟩ := emit_forest (zs := f.events) (region := none) f [] [] {} ⟨rfl, rfl, fun a x b e => by simp at e⟩
    hc (by simp) ⟨[], by simp [ZoneIter.init]⟩
  unfold emitZones
  rw [h, bind_ok]
  exact congrArg Out.ok S.root

/-- C65, split document.  The file of a region lists the same zones except those that are not inside of the
region or in such a zone. -/
theorem C65_region_partial (f : Forest) (hc : f.NoClash) (r : Region) :
    emitZones (some r) f.events = .ok (f.documentIn r.startCycle r.endCycle fun _ => 0) := by
  obtain ⟨d, h, S, _⟩ := emit_forest (zs := f.events) (region := some r) f [] [] {}
    ⟨rfl, rfl, fun a x b e => by simp at e⟩ hc (by simp) ⟨[], by simp [ZoneIter.init]⟩
  unfold emitZones
  rw [h, bind_ok]
  exact congrArg Out.ok S.root

example : nested.NoClash := by
  simp [nested, Forest.NoClash, Forest.Has]

example : emitZones none nested.events = .ok
    [.node 0 (some ("a[0]", 100)) [.node 10 (some ("b[0]", 20)) [],
      .node 30 (some ("b[1]", 60)) [.node 40 (some ("a[1]", 50)) []]],
     .node 110 (some ("a[2]", 120)) []] := by
  rw [C65_document_partial nested (by simp [nested, Forest.NoClash, Forest.Has])]
  rfl

example : emitZones (some { startIdx := 0, endIdx := 1, startCycle := 0, endCycle := 105 }) nested.events = .ok
    [.node 0 (some ("a[0]", 100)) [.node 10 (some ("b[0]", 20)) [],
      .node 30 (some ("b[1]", 60)) [.node 40 (some ("a[1]", 50)) []]]] := by
  rw [C65_region_partial nested (by simp [nested, Forest.NoClash, Forest.Has])]
  rfl

/-- What C65 asks for without a hypothesis about names. -/
def C65_claim : Prop := ∀ f : Forest, emitZones none f.events = .ok (f.document fun _ => 0)

/-- Violated: the code finds the object of a zone by its name and start.  If a zone starts together with a
zone of the same name around it, the end of the outer one is written to the inner one, with the label of the
outer one, and the outer one is left without label and end. -/
theorem C65_violated : ¬ C65_claim ∧
    emitZones none (Forest.cons "a" 0 10 (.cons "a" 0 5 .nil .nil) .nil).events =
      .ok [.node 0 none [.node 0 (some ("a[0]", 10)) []]] := by
  have h : emitZones none (Forest.cons "a" 0 10 (.cons "a" 0 5 .nil .nil) .nil).events =
      .ok [.node 0 none [.node 0 (some ("a[0]", 10)) []]] := rfl
  refine ⟨fun c => ?_, h⟩
  have := c (.cons "a" 0 10 (.cons "a" 0 5 .nil .nil) .nil)
  rw [h] at this
  replace this := Out.ok.inj this
  simp [Forest.document] at this

/-- What one expects of a file for a region: it lists every zone inside of the region, wherever that zone
is nested. -/
def C65_region_claim : Prop := ∀ (f : Forest) (r : Region) (n : String) (s e : Int), f.NoClash →
  Spec.HasSpan n s e f → (r.startCycle : Int) ≤ s → e ≤ (r.endCycle : Int) →
  ∃ doc, emitZones (some r) f.events = .ok doc ∧ Spec.Lists s e doc

/-- Violated: a zone inside of the region is not listed when a zone around it reaches beyond the region. -/
theorem C65_violated_region : ¬ C65_region_claim := by
  intro c
  obtain ⟨doc, h, hl⟩ := c (.cons "a" 0 100 (.cons "b" 10 20 .nil .nil) .nil)
    { startIdx := 0, endIdx := 1, startCycle := 5, endCycle := 50 } "b" 10 20 (by simp [Forest.NoClash, Forest.Has])
    (by simp [Spec.HasSpan]) (by decide) (by decide)
  rw [C65_region_partial _ (by simp [Forest.NoClash, Forest.Has])] at h
  rw [← Out.ok.inj h] at hl
  simp [Forest.documentIn] at hl
  cases hl

/-- An end without an open zone is undefined behaviour: the label is read from the empty stack before the
iterator checks it. -/
theorem C65_stray_end (f : Forest) (hc : f.NoClash) (region : Option Region) (z : Zone) (hz : z.phase = .zoneEnd)
    (rest : List Zone) : emitZones region (f.events ++ z :: rest) = .ub := by
  obtain ⟨d, h, S, st, _⟩ := emit_forest (zs := f.events ++ z :: rest) (region := region) f [] [] {}
    ⟨rfl, rfl, fun a x b e => by simp at e⟩ hc (by simp) ⟨z :: rest, by simp [ZoneIter.init]⟩
  unfold emitZones
  rw [foldlM_append, h, bind_ok, Out.foldlM_cons]
  have : ZoneDoc.step region (f.events ++ z :: rest) d z = .ub := by
    unfold ZoneDoc.step
    rw [hz]
    simp only
    unfold ZoneDoc.close
    rw [st]
    rfl
  rw [this]
  rfl

example : emitZones none [⟨0, "a", .zoneStart⟩, ⟨5, "a", .zoneEnd⟩, ⟨7, "a", .zoneEnd⟩] = .ub :=
  C65_stray_end (.cons "a" 0 5 .nil .nil) (by simp [Forest.NoClash, Forest.Has]) none _ rfl []

end NPE.Props
