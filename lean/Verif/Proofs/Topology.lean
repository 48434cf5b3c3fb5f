import Verif.Spec.Topology
import Verif.Proofs.Analyze
import Verif.Proofs.Fabric
import Verif.Proofs.Scan

/-
Helper lemmas for topology files.
-/

namespace NPE.Fabric

open Spec.Fabric Spec.Analyze Out

/-! ### Dictionaries -/

section
variable {κ α : Type} [DecidableEq κ] [BEq κ] [LawfulBEq κ]

theorem setDict_keys (k : κ) (v : α) (m : List (κ × α)) (x : κ) :
    x ∈ (setDict k v m).map (·.1) ↔ x = k ∨ x ∈ m.map (·.1) := by
  induction m with
  | nil => simp [setDict]
  | cons e m ih =>
    unfold setDict
    split
    · rename_i he
      simp only [List.map_cons, List.mem_cons, he]
      tauto
    · simp only [List.map_cons, List.mem_cons, ih]
      tauto

theorem setDict_nodup (k : κ) (v : α) (m : List (κ × α)) (h : (m.map (·.1)).Nodup) :
    ((setDict k v m).map (·.1)).Nodup := by
  induction m with
  | nil => simp [setDict]
  | cons e m ih =>
    rw [List.map_cons, List.nodup_cons] at h
    unfold setDict
    split
    · rw [List.map_cons, List.nodup_cons]
      exact h
    · rename_i he
      rw [List.map_cons, List.nodup_cons, setDict_keys]
      exact ⟨fun hx => hx.elim he h.1, ih h.2⟩

theorem setDict_lookup (k : κ) (v : α) (m : List (κ × α)) (x : κ) :
    (setDict k v m).lookup x = if x = k then some v else m.lookup x := by
  induction m with
  | nil =>
    unfold setDict
    by_cases hx : x = k
    · rw [if_pos hx, List.lookup_cons, hx]; simp
    · rw [if_neg hx, List.lookup_cons, beq_false_of_ne hx]
  | cons e m ih =>
    unfold setDict
    by_cases he : e.1 = k
    · rw [if_pos he]
      by_cases hx : x = k
      · rw [if_pos hx, List.lookup_cons, hx, he]; simp
      · rw [if_neg hx, List.lookup_cons, List.lookup_cons, he, beq_false_of_ne hx]
    · rw [if_neg he, List.lookup_cons, List.lookup_cons]
      by_cases hx : x = k
      · rw [if_pos hx, beq_false_of_ne (fun h : x = e.1 => he (h.symm.trans hx))]
        exact ih.trans (if_pos hx)
      · rw [if_neg hx]
        rw [if_neg hx] at ih
        rw [ih]

theorem setDict_new (k : κ) (v : α) (m : List (κ × α)) (h : k ∉ m.map (·.1)) : setDict k v m = m ++ [(k, v)] := by
  induction m with
  | nil => rfl
  | cons e m ih =>
    simp only [List.map_cons, List.mem_cons, not_or] at h
    unfold setDict
    rw [if_neg (fun he => h.1 he.symm), ih h.2, List.cons_append]

theorem buildDict_snoc (l : List (κ × α)) (e : κ × α) : buildDict (l ++ [e]) = setDict e.1 e.2 (buildDict l) := by
  unfold buildDict
  rw [List.foldl_append]; rfl

theorem buildDict_nodup (l : List (κ × α)) : ((buildDict l).map (·.1)).Nodup := by
  induction l using List.reverseRecOn with
  | nil => exact List.nodup_nil
  | append_singleton l e ih => rw [buildDict_snoc]; exact setDict_nodup _ _ _ ih

theorem buildDict_lookup (l : List (κ × α)) (x : κ) : (buildDict l).lookup x = l.reverse.lookup x := by
  induction l using List.reverseRecOn with
  | nil => rfl
  | append_singleton l e ih =>
    rw [buildDict_snoc, setDict_lookup, ih, List.reverse_append, List.reverse_singleton, List.singleton_append,
      List.lookup_cons]
    by_cases hx : x = e.1
    · rw [if_pos hx, hx]; simp
    · rw [if_neg hx, beq_false_of_ne hx]

theorem buildDict_of_nodup (l : List (κ × α)) (h : (l.map (·.1)).Nodup) : buildDict l = l := by
  induction l using List.reverseRecOn with
  | nil => rfl
  | append_singleton l e ih =>
    rw [List.map_append, List.nodup_append] at h
    rw [buildDict_snoc, ih h.1, setDict_new]
    intro hc
    exact h.2.2 _ hc _ (List.mem_map_of_mem List.mem_cons_self) rfl

end

/-! ### Keys -/

theorem pyDigits_digits (l : List Char) (h : ∀ c ∈ l, c.isDigit = true) (acc : Nat) (b : Bool) (hb : b = true ∨ l ≠ []) :
    pyDigits acc b l = some (l.foldl (fun n c => 10 * n + (c.toNat - 48)) acc) := by
  induction l generalizing acc b with
  | nil =>
    rcases hb with rfl | hb
    · rfl
    · exact absurd rfl hb
  | cons c l ih =>
    unfold pyDigits
    rw [if_pos (h c List.mem_cons_self), ih (fun x hx => h x (List.mem_cons_of_mem _ hx)) _ _ (.inl rfl)]
    rfl

theorem digit_not_space {c : Char} (h : c.isDigit = true) : isSpace c = false := by
  obtain ⟨hc, hd⟩ := Analyze.digit_of_isDigit h
  rw [hc]
  generalize c.toNat - 48 = d at hd
  interval_cases d <;> decide

theorem digit_not_sign {c : Char} (h : c.isDigit = true) : c ≠ '-' ∧ c ≠ '+' := by
  obtain ⟨hc, hd⟩ := Analyze.digit_of_isDigit h
  rw [hc]
  generalize c.toNat - 48 = d at hd
  interval_cases d <;> decide

theorem dropSpace_digits {l : List Char} (h : ∀ c ∈ l, c.isDigit = true) : l.dropWhile isSpace = l := by
  cases l with
  | nil => rfl
  | cons c l => rw [List.dropWhile_cons, digit_not_space (h c List.mem_cons_self)]; rfl

/-- Decimal numbers are read as what they denote. -/
theorem pyInt_denotes {s : List Char} {n : Nat} (h : Denotes s n) : pyInt s = some (n : Int) := by
  obtain ⟨hne, hd, hv⟩ := (Analyze.denotes_iff s n).mp h
  unfold pyInt
  rw [dropSpace_digits hd, dropSpace_digits (fun c hc => hd c (List.mem_reverse.mp hc)), List.reverse_reverse]
  have : pySigned s = (pyDigits 0 false s).map fun (n : Nat) => (n : Int) := by
    cases s with
    | nil => rfl
    | cons c l =>
      obtain ⟨h1, h2⟩ := digit_not_sign (hd c List.mem_cons_self)
      unfold pySigned
      split
      · rename_i heq; exact absurd (List.cons.inj heq).1 h1
      · rename_i heq; exact absurd (List.cons.inj heq).1 h2
      · rfl
  rw [this, pyDigits_digits s hd 0 false (.inr hne)]
  show some ((Analyze.value s : Nat) : Int) = _
  rw [hv]

/-! ### Reading of entries -/

theorem pyGet_field {j : Json} {k : String} {v : Json} (h : j.field k = some v) : pyGet j k = .ok (some v) := by
  cases j <;> first | (cases h; done) | skip
  rename_i l
  show Out.ok (l.lookup k) = _
  exact congrArg _ h

theorem meshEntry_ok {j : Json} {m : Int × (Int × Int)} (h : MeshIs j m) : meshEntry j = .ok m := by
  unfold meshEntry
  rw [pyGet_field h.1, bind_ok, pyGet_field h.2, bind_ok]
  rfl

theorem channelEntry_ok {j : Json} {p : Int × (Dir → Option Int)} (h : PlaneIs j p) (dev : Int) (d : Dir) :
    channelEntry dev p.1 j d = .ok ((p.2 d).map fun n => ((dev, p.1, d), n)) := by
  obtain ⟨_, l, hl, hd⟩ := h
  have hn : d.name = letter d := by cases d <;> rfl
  unfold channelEntry
  rw [pyGet_field hl, bind_ok, hn]
  show (Out.ok (l.lookup (letter d)) >>= _) = _
  rw [bind_ok]
  have := hd d
  cases hp : p.2 d with
  | some c => rw [hp] at this; rw [this]; rfl
  | none =>
    rw [hp] at this
    rcases this with h | h <;> rw [h] <;> rfl

theorem mapM_of_forall {α β : Type} {f : α → Out β} {l : List α} {r : List β}
    (h : List.Forall₂ (fun a b => f a = .ok b) l r) : Out.mapM f l = .ok r := by
  rw [mapM_eq_ok]; exact h

theorem planeEntry_ok {j : Json} {p : Int × (Dir → Option Int)} (h : PlaneIs j p) (dev : Int) :
    planeEntry dev j = .ok ([Dir.N, .S, .E, .W].filterMap fun d => (p.2 d).map fun n => ((dev, p.1, d), n)) := by
  unfold planeEntry
  rw [pyGet_field h.1, bind_ok]
  have hp : present (some (.int p.1)) = .ok (.int p.1) := rfl
  rw [hp, bind_ok]
  show (Out.mapM (channelEntry dev p.1 j) [.N, .S, .E, .W] >>= _) = _
  rw [mapM_of_forall (r := [Dir.N, .S, .E, .W].map fun d => (p.2 d).map fun n => ((dev, p.1, d), n)), bind_ok,
    List.filterMap_map]
  · rfl
  · exact .cons (channelEntry_ok h dev _) (.cons (channelEntry_ok h dev _) (.cons (channelEntry_ok h dev _)
      (.cons (channelEntry_ok h dev _) .nil)))

theorem deviceEntry_ok {j : Json} {c : Int × List (Int × (Dir → Option Int))} (h : ChipIs j c) :
    deviceEntry j = .ok (c.2.flatMap fun plane =>
      [Dir.N, .S, .E, .W].filterMap fun d => (plane.2 d).map fun n => ((c.1, plane.1, d), n)) := by
  obtain ⟨hd, l, hl, hp⟩ := h
  unfold deviceEntry
  rw [pyGet_field hd, bind_ok]
  show (pyGet j "device_routing_planes" >>= iterate >>= fun ps => Out.mapM (planeEntry c.1) ps >>= _) = _
  rw [pyGet_field hl, bind_ok]
  show (Out.mapM (planeEntry c.1) l >>= _) = _
  rw [mapM_of_forall (r := c.2.map fun plane => [Dir.N, .S, .E, .W].filterMap fun d =>
    (plane.2 d).map fun n => ((c.1, plane.1, d), n)), bind_ok, List.flatMap_def]
  rw [List.forall₂_map_right_iff]
  exact hp.imp fun _ _ h => planeEntry_ok h c.1

theorem pairEntry_ok {e : String × Json} {p : Nat × (Int × Int)} (h : PairIs e p) :
    pairEntry e = .ok ((p.1 : Int), p.2) := by
  unfold pairEntry
  rw [pyInt_denotes h.1, h.2]
  rfl

theorem pairEntries_ok {l : List (String × Json)} {ps : List (Nat × (Int × Int))} (h : List.Forall₂ PairIs l ps) :
    pairEntries (some (.obj l)) = .ok (ps.map fun e => ((e.1 : Int), e.2)) := by
  show Out.mapM pairEntry l = _
  apply mapM_of_forall
  rw [List.forall₂_map_right_iff]
  exact h.imp fun _ _ h => pairEntry_ok h

/-! ### The reverse table -/

theorem lookup_swap (l : List (Int × (Int × Int))) (n : Int × Int) :
    (l.map fun e => (e.2, e.1)).lookup n = (l.find? fun e => e.2 = n).map (·.1) := by
  induction l with
  | nil => rfl
  | cons e l ih =>
    rw [List.map_cons, List.lookup_cons, List.find?_cons]
    by_cases h : n = e.2
    · rw [h]; simp
    · rw [beq_false_of_ne h, decide_eq_false (fun hh => h hh.symm)]
      exact ih

theorem devices_eq {nodes : List (Int × (Int × Int))} (h : (nodes.map (·.1)).Nodup) (t : Topology) (n : Int × Int)
    (ht : t.nodes = buildDict nodes) : (buildDict (nodes.map fun e => (e.2, e.1))).lookup n = t.deviceOf n := by
  unfold Topology.deviceOf
  rw [buildDict_lookup, ht, buildDict_of_nodup _ h, ← List.map_reverse, lookup_swap]

/-! ### Whole files -/

theorem loadTables_ok {j : Json} {c : Contents} (h : Holds j c) (meshes : List (Int × (Int × Int))) (config cluster : String) :
    loadTables j meshes config cluster = .ok ⟨⟨meshes, config, cluster, buildDict c.channelList,
      buildDict (c.nodes.map fun e => ((e.1 : Int), e.2)), buildDict (c.ports.map fun e => ((e.1 : Int), e.2))⟩,
      buildDict ((c.nodes.map fun e => ((e.1 : Int), e.2)).map fun e => (e.2, e.1))⟩ := by
  obtain ⟨l1, hl1, hc⟩ := h.channels
  obtain ⟨l2, hl2, hn⟩ := h.nodes
  obtain ⟨l3, hl3, hp⟩ := h.ports
  unfold loadTables
  rw [pyGet_field hl1, bind_ok]
  show (Out.mapM deviceEntry l1 >>= _) = _
  rw [mapM_of_forall (r := c.channels.map fun chip => chip.2.flatMap fun plane =>
    [Dir.N, .S, .E, .W].filterMap fun d => (plane.2 d).map fun n => ((chip.1, plane.1, d), n)), bind_ok,
    pyGet_field hl2, bind_ok, pairEntries_ok hn, bind_ok, pyGet_field hl3, bind_ok, pairEntries_ok hp, bind_ok]
  · rw [← List.flatMap_def]; rfl
  · rw [List.forall₂_map_right_iff]
    exact hc.imp fun _ _ h => deviceEntry_ok h

theorem supported_iff (s : String) : supported s = true ↔ s ∈ fabrics := by
  unfold supported fabrics
  simp [or_assoc]

theorem loadTopology_ok {j : Json} {c : Contents} (h : Holds j c) (hc : c.config ∈ fabrics) :
    loadTopology j = loadTables j c.mesh.toList c.config c.cluster := by
  obtain ⟨l, hl, hm⟩ := h.mesh
  unfold loadTopology
  rw [pyGet_field h.config, bind_ok, pyGet_field h.cluster, bind_ok, pyGet_field hl, bind_ok]
  show (Out.mapM meshEntry l >>= _) = _
  rw [mapM_of_forall (hm.imp fun _ _ h => meshEntry_ok h), bind_ok]
  have hb : buildDict c.mesh.toList = c.mesh.toList := by
    apply buildDict_of_nodup
    cases c.mesh <;> simp
  have hlen : ¬ 1 < c.mesh.toList.length := by cases c.mesh <;> simp
  have hcl : present (some (.str c.cluster)) = .ok (.str c.cluster) := rfl
  rw [hb, if_neg (by rw [not_not]; exact (supported_iff c.config).mpr hc), hcl, bind_ok, if_neg hlen]
  rfl

/-! ### Comments -/

theorem dropLine_cons {c : Char} {l : List Char} (h : ¬ ∃ r, c = '/' ∧ l = '/' :: r) :
    dropLineComments false (c :: l) = c :: dropLineComments false l := by
  by_cases hc : c = '\n'
  · subst hc; rw [dropLineComments]
  · rw [dropLineComments, if_neg (by decide), if_neg]
    · rintro ⟨rfl, hl⟩
      obtain ⟨r, hr⟩ := List.head?_eq_some_iff.mp hl
      exact h ⟨r, rfl, hr⟩
    · exact hc

theorem dropLine_keep {w r : List Char} (h : ¬ "//".toList <:+: w) (hr : ∀ x y, w = x ++ ['/'] → r ≠ '/' :: y) :
    dropLineComments false (w ++ r) = w ++ dropLineComments false r := by
  induction w with
  | nil => rfl
  | cons c w ih =>
    rw [List.cons_append, dropLine_cons, ih, List.cons_append]
    · exact fun hi => h (hi.trans (List.suffix_cons c w).isInfix)
    · intro x y hw
      exact hr (c :: x) y (by rw [hw]; rfl)
    · rintro ⟨t, rfl, hw⟩
      cases w with
      | nil => exact hr [] t rfl hw
      | cons d w =>
        obtain ⟨rfl, _⟩ := List.cons.inj hw
        exact h ⟨[], w, rfl⟩

theorem dropLine_skip_cons {c : Char} {l : List Char} (h : c ≠ '\n') :
    dropLineComments true (c :: l) = dropLineComments true l := by
  rw [dropLineComments, if_pos rfl]
  exact h

theorem dropLine_begin (l : List Char) : dropLineComments false ('/' :: '/' :: l) = dropLineComments true l := by
  rw [dropLineComments, if_neg (by decide), if_pos ⟨rfl, rfl⟩, dropLine_skip_cons (by decide)]
  decide

theorem dropLine_skip {s r : List Char} (h : '\n' ∉ s) :
    dropLineComments true (s ++ '\n' :: r) = '\n' :: dropLineComments false r := by
  induction s with
  | nil => rfl
  | cons c s ih =>
    simp only [List.mem_cons, not_or] at h
    rw [List.cons_append, dropLine_skip_cons (fun hc => h.1 hc.symm), ih h.2]

theorem dropBlock_cons {c : Char} {l : List Char} (h : c ≠ '/') : dropBlockComments (c :: l) = c :: dropBlockComments l := by
  rw [dropBlockComments]
  rintro _ rfl
  exact absurd rfl h

theorem dropBlock_keep {w r : List Char} (h : '/' ∉ w) : dropBlockComments (w ++ r) = w ++ dropBlockComments r := by
  induction w with
  | nil => rfl
  | cons c w ih =>
    simp only [List.mem_cons, not_or] at h
    rw [List.cons_append, dropBlock_cons (fun hc => h.1 hc.symm), ih h.2, List.cons_append]

theorem afterClose_cons {c : Char} {l : List Char} (h : ¬ ∃ r, c = '*' ∧ l = '/' :: r) :
    afterClose (c :: l) = afterClose l := by
  rw [afterClose]
  rintro r rfl rfl
  exact h ⟨r, rfl, rfl⟩

theorem afterClose_body {s r : List Char} (h : ¬ "*/".toList <:+: s) :
    afterClose (s ++ '*' :: '/' :: r) = some r := by
  induction s with
  | nil => rfl
  | cons c s ih =>
    rw [List.cons_append, afterClose_cons, ih (fun hi => h (hi.trans (List.suffix_cons c s).isInfix))]
    rintro ⟨t, rfl, hs⟩
    cases s with
    | nil => exact absurd (List.cons.inj hs).1 (by decide)
    | cons d s =>
      obtain ⟨rfl, _⟩ := List.cons.inj hs
      exact h ⟨[], s, rfl⟩

theorem dropBlock_comment {s r : List Char} (h : ¬ "*/".toList <:+: s) :
    dropBlockComments ('/' :: '*' :: (s ++ '*' :: '/' :: r)) = dropBlockComments r := by
  rw [dropBlockComments]
  split
  · rename_i heq; rw [afterClose_body h] at heq; rw [Option.some.inj heq]
  · rename_i heq; rw [afterClose_body h] at heq; cases heq

end NPE.Fabric
