import Verif.Spec.CommandLine

/-
Helper lemmas about the words of the command line.
-/

namespace NPE.Cli

open NPE.Spec.CommandLine

theorem splitAtEq_append {a t : List Char} (h : '=' ∉ a) : splitAtEq (a ++ '=' :: t) = some (a, t) := by
  induction a with
  | nil => simp [splitAtEq]
  | cons c a ih =>
    simp only [List.mem_cons, not_or] at h
    simp [splitAtEq, ih h.2, Ne.symm h.1]

theorem splitAtEq_none {x : List Char} (h : '=' ∉ x) : splitAtEq x = none := by
  induction x with
  | nil => rfl
  | cons c x ih =>
    simp only [List.mem_cons, not_or] at h
    simp [splitAtEq, ih h.2, Ne.symm h.1]

theorem names_table : ∀ e ∈ optNames, '=' ∉ e.1.toList ∧ e.1.toList.head? = some '-' ∧ 2 ≤ e.1.toList.length ∧
    findOpt e.1.toList = some e.2 ∧ classify e.1.toList = .opt e.2 none := by
  decide +kernel

theorem findOpt_eq {w : List Char} (h : '=' ∈ w) : findOpt w = none := by
  unfold findOpt
  rw [Option.map_eq_none_iff, List.find?_eq_none]
  intro e he hw
  rw [beq_iff_eq] at hw
  exact (names_table e he).1 (hw ▸ h)

theorem classify_split {name t : String} {o : Opt} (h : (name, o) ∈ optNames)
    (ho : o.arity ≠ .none ∨ name.toList.tail.head? = some '-') :
    classify (name ++ "=" ++ t).toList = .opt o (some t.toList) := by
  have ht := names_table _ h
  have hl : (name ++ "=" ++ t).toList = name.toList ++ '=' :: t.toList := by
    simp [String.toList_append]
  rw [hl]
  obtain ⟨h1, h2, h3, h4, -⟩ := ht
  simp only at h1 h2 h3 h4
  generalize name.toList = n at *
  obtain _ | ⟨c, _ | ⟨c', n⟩⟩ := n
  · simp at h2
  · simp at h3
  · simp only [List.head?_cons, Option.some.injEq] at h2
    subst h2
    have hf : findOpt ('-' :: c' :: n ++ '=' :: t.toList) = none := findOpt_eq (by simp)
    have hs := splitAtEq_append (t := t.toList) h1
    unfold classify
    rw [List.cons_append, List.cons_append] at hf hs ⊢
    simp only [hf, hs, Option.bind_some, h4, Option.map_some]
    rw [if_neg (by simp), if_neg]
    rintro ⟨ha, hb⟩
    obtain ho | ho := ho
    · exact ho ha
    · simp only [List.tail_cons, List.head?_cons] at ho
      exact hb (by simpa using ho)

theorem classify_joined {name t : String} {o : Opt} (h : (name, o) ∈ optNames) (ho : o.arity ≠ .none) :
    classify (name ++ "=" ++ t).toList = .opt o (some t.toList) := classify_split h (.inl ho)

theorem classify_joined_long {name t : String} {o : Opt} (h : (name, o) ∈ optNames)
    (hl : name.toList.tail.head? = some '-') : classify (name ++ "=" ++ t).toList = .opt o (some t.toList) :=
  classify_split h (.inr hl)

theorem classify_plain {t : String} (h : t.toList.head? ≠ some '-') : classify t.toList = .value := by
  generalize t.toList = w at *
  obtain _ | ⟨c, w⟩ := w
  · rfl
  · unfold classify
    split
    · rename_i h'
      simp only [List.cons.injEq] at h'
      simp [h'.1] at h
    · rfl

/-- The option of a request. -/
def reqOpt : Request → Opt
  | .cycles _ => .cycles
  | .device _ => .device
  | .congModel _ => .congModel
  | .workload _ => .workload
  | .scale _ => .scale
  | .timelinePath _ => .timelinePath
  | .topology _ => .topology
  | .verbosity _ => .verbose
  | .noInference => .noInference
  | .emit => .emit
  | .isTrace => .isTrace
  | .compress => .compress
  | .legacy => .legacy

/-- A request stored. -/
def reqStore (p : Parsed) : Request → Parsed
  | .cycles n => { p with args := { p.args with cycles := n } }
  | .device s => { p with args := { p.args with device := s } }
  | .congModel s => { p with args := { p.args with congModel := s } }
  | .workload s => { p with args := { p.args with workload := s } }
  | .scale q => { p with args := { p.args with scale := q } }
  | .timelinePath s => { p with args := { p.args with timelinePath := s } }
  | .topology s => { p with topology := s }
  | .verbosity n => { p with verbose := n }
  | .noInference => { p with args := { p.args with noInference := true } }
  | .emit => { p with args := { p.args with emit := true } }
  | .isTrace => { p with args := { p.args with isTrace := true } }
  | .compress => { p with args := { p.args with compress := true } }
  | .legacy => { p with args := { p.args with legacy := true } }

theorem req_name {r : Request} {name : String} (h : name ∈ r.names) : (name, reqOpt r) ∈ optNames := by
  cases r <;> simp only [Request.names, List.mem_cons, List.not_mem_nil, or_false] at h
  all_goals first
    | (subst h; simp [optNames, reqOpt])
    | (obtain rfl | rfl := h <;> simp [optNames, reqOpt])

theorem names_all : optNames.map (·.1) ⊆ knownNames ∧ knownNames ⊆ optNames.map (·.1) ∧ (optNames.map (·.1)).Nodup := by
  decide +kernel

theorem filter_unique {l : List (String × Opt)} (hn : (l.map (·.1)).Nodup) {e : String × Opt} (he : e ∈ l)
    {f : String × Opt → Bool} (hf : f e = true) (hu : ∀ e' ∈ l, f e' = true → e'.1 = e.1) : l.filter f = [e] := by
  induction l with
  | nil => cases he
  | cons a l ih =>
    rw [List.map_cons, List.nodup_cons] at hn
    have hrest : ∀ x ∈ l, f x = true → x.1 = e.1 := fun x hx => hu x (List.mem_cons_of_mem _ hx)
    rcases List.mem_cons.1 he with rfl | he
    · rw [List.filter_cons_of_pos hf, List.filter_eq_nil_iff.2]
      intro x hx hfx
      exact hn.1 (List.mem_map.2 ⟨x, hx, hrest x hx hfx⟩)
    · rw [List.filter_cons_of_neg, ih hn.2 he hrest]
      intro ha
      exact hn.1 (List.mem_map.2 ⟨e, he, (hu a List.mem_cons_self ha).symm⟩)

/-- What a name is read as. -/
theorem classify_called {r : Request} {n : String} (h : r.Called n) : classify n.toList = .opt (reqOpt r) none ∧
    ∀ t : String, (reqOpt r).arity ≠ .none → classify (n ++ "=" ++ t).toList = .opt (reqOpt r) (some t.toList) := by
  have hfull : ∀ {n : String}, n ∈ r.names → classify n.toList = .opt (reqOpt r) none ∧
      ∀ t : String, (reqOpt r).arity ≠ .none → classify (n ++ "=" ++ t).toList = .opt (reqOpt r) (some t.toList) :=
    fun hn => ⟨(names_table _ (req_name hn)).2.2.2.2, fun t ht => classify_joined (req_name hn) ht⟩
  cases h with
  | full hn => exact hfull hn
  | @abbreviated name hn h2 hp hu =>
    by_cases hmem : n ∈ knownNames
    · rw [hu n hmem List.prefix_rfl]
      exact hfull hn
    · have hf : findOpt n.toList = none := by
        unfold findOpt
        rw [Option.map_eq_none_iff, List.find?_eq_none]
        intro e he hw
        rw [beq_iff_eq] at hw
        have : e.1 = n := String.toList_inj.1 hw
        exact hmem (this ▸ names_all.1 (List.mem_map.2 ⟨e, he, rfl⟩))
      have heq : '=' ∉ n.toList := fun h => (names_table _ (req_name hn)).1 (hp.subset h)
      have hfil : optNames.filter (fun e => n.toList.isPrefixOf e.1.toList) = [(name, reqOpt r)] := by
        refine filter_unique names_all.2.2 (req_name hn) (List.isPrefixOf_iff_prefix.2 hp) ?_
        intro e he hpe
        exact hu e.1 (names_all.1 (List.mem_map.2 ⟨e, he, rfl⟩)) (List.isPrefixOf_iff_prefix.1 hpe)
      have hl : ∀ t : String, (n ++ "=" ++ t).toList = n.toList ++ '=' :: t.toList := by
        intro t
        simp [String.toList_append]
      simp only [hl]
      generalize n.toList = l at *
      obtain _ | ⟨a, _ | ⟨b, l⟩⟩ := l
      · simp at h2
      · simp at h2
      · simp only [List.take_succ_cons, List.take_zero, List.cons.injEq, and_true] at h2
        obtain ⟨rfl, rfl⟩ := h2
        constructor
        · have hs := splitAtEq_none heq
          unfold classify
          simp only [hf, hs, Option.bind_none]
          rw [if_neg (by simp)]
          unfold abbreviation
          simp only [hs, hfil]
        · intro t _
          have hf' : findOpt ('-' :: '-' :: l ++ '=' :: t.toList) = none := findOpt_eq (by simp)
          have hs := splitAtEq_append (t := t.toList) heq
          unfold classify
          rw [List.cons_append, List.cons_append] at hf' hs ⊢
          simp only [hf', hs, Option.bind_some, hf, Option.map_none]
          rw [if_neg (by simp)]
          unfold abbreviation
          simp only [hs, hfil]

theorem short_table : ∀ e ∈ optNames, e.1.toList.length = 2 ∧ e.1.toList.tail.head? ≠ some '-' ∧
    e.1.toList.tail.head? ≠ some '=' ∨ e.1.toList.tail.head? = some '-' ∧ 2 < e.1.toList.length := by
  decide +kernel

theorem findOpt_glued {c x : Char} {t : List Char} (hc : c ≠ '-') : findOpt ('-' :: c :: x :: t) = none := by
  unfold findOpt
  rw [Option.map_eq_none_iff, List.find?_eq_none]
  intro e he hw
  rw [beq_iff_eq] at hw
  have := short_table e he
  rw [hw] at this
  simp [hc] at this

/-- What a short name with a text is read as. -/
theorem classify_glued {r : Request} {n t : String} (hn : n ∈ r.names) (h2 : n.toList.length = 2) (ht : t ≠ "")
    (hh : t.toList.head? ≠ some '=') (ha : (reqOpt r).arity ≠ .none) :
    classify (n ++ t).toList = .opt (reqOpt r) (some t.toList) := by
  have hl : (n ++ t).toList = n.toList ++ t.toList := String.toList_append
  have hs := short_table _ (req_name hn)
  obtain ⟨h1, hd, -, hfo, -⟩ := names_table _ (req_name hn)
  have ht' : t.toList ≠ [] := fun h => ht (String.toList_inj.1 (by rw [h]; rfl))
  rw [hl]
  simp only at hs h1 hd hfo
  generalize n.toList = l at *
  generalize t.toList = u at *
  obtain _ | ⟨a, _ | ⟨c, _ | ⟨b, l⟩⟩⟩ := l
  · simp at h2
  · simp at h2
  · simp only [List.head?_cons, Option.some.injEq] at hd
    subst hd
    obtain _ | ⟨x, u⟩ := u
    · exact absurd rfl ht'
    · have hx : x ≠ '=' := by simpa using hh
      have hc : c ≠ '-' := by
        simp at hs
        exact hs.1
      have hce : c ≠ '=' := fun h => h1 (by simp [h])
      have hf : findOpt ('-' :: c :: x :: u) = none := findOpt_glued hc
      have hsp : (splitAtEq ('-' :: c :: x :: u)).bind (fun e => (findOpt e.1).map fun o => (o, e.2)) = none := by
        simp only [splitAtEq, hx, hce, if_false]
        rw [if_neg (by decide)]
        cases splitAtEq u with
        | none => rfl
        | some e => simp [findOpt_glued hc]
      have hab : abbreviation ('-' :: c :: x :: u) = none := by
        unfold abbreviation
        split
        · rename_i h
          simp only [List.cons.injEq] at h
          exact absurd h.2.1 hc
        · rfl
      have hg : glued ('-' :: c :: x :: u) = some (reqOpt r, x :: u) := by
        unfold glued
        simp only [hfo, Option.bind_some]
        rw [if_neg ha]
      unfold classify
      simp only [List.cons_append, List.nil_append, hf, hsp, hab, hg]
      rw [if_neg (by simp)]
  · simp at h2

theorem findOpt_odd {c : Char} {r : List Char} (hc : c ≠ '-') (h : findOpt ['-', c] = none) :
    findOpt ('-' :: c :: r) = none := by
  cases r with
  | nil => exact h
  | cons x r => exact findOpt_glued hc

/-- Words with a dash that do not look like options. -/
theorem classify_odd {c : Char} {r : List Char} (hc : c ≠ '-') (h : findOpt ['-', c] = none)
    (hv : negativeNumber ('-' :: c :: r) = true ∨ ' ' ∈ c :: r) : classify ('-' :: c :: r) = .value := by
  have hf := findOpt_odd (r := r) hc h
  have hsp : (splitAtEq ('-' :: c :: r)).bind (fun e => (findOpt e.1).map fun o => (o, e.2)) = none := by
    have hd : findOpt ['-'] = none := by decide +kernel
    by_cases hce : c = '='
    · subst hce
      simp [splitAtEq, hd]
    · simp only [splitAtEq, hce, if_false]
      rw [if_neg (by decide)]
      cases splitAtEq r with
      | none => rfl
      | some e => simp [findOpt_odd hc h]
  have hab : abbreviation ('-' :: c :: r) = none := by
    unfold abbreviation
    split
    · rename_i h
      simp only [List.cons.injEq] at h
      exact absurd h.2.1 hc
    · rfl
  have hg : glued ('-' :: c :: r) = none := by
    cases r with
    | nil => rfl
    | cons x r => simp only [glued, h, Option.bind_none]
  have hb : beginsName ('-' :: c :: r) = false := by
    unfold beginsName
    split
    · rename_i h
      simp only [List.cons.injEq] at h
      exact absurd h.2.1 hc
    · rename_i h'
      simp only [List.cons.injEq] at h'
      rw [← h'.2.1, h]
      rfl
    · rfl
  unfold classify
  simp only [hf, hsp, hab, hg, hb]
  rw [if_neg (by simp), if_neg (by simp)]
  split
  · rfl
  · rename_i hn
    rw [if_pos]
    obtain hv | hv := hv
    · exact absurd hv hn
    · exact List.mem_cons_of_mem _ hv

theorem number_table : ∀ e ∈ optNames, ∀ c ∈ e.1.toList, c.isDigit = false ∧ c ≠ '.' := by decide +kernel

theorem findOpt_number {c : Char} (hc : c.isDigit = true ∨ c = '.') : c ≠ '-' ∧ findOpt ['-', c] = none := by
  constructor
  · rintro rfl
    revert hc
    decide
  · unfold findOpt
    rw [Option.map_eq_none_iff, List.find?_eq_none]
    intro e he hw
    rw [beq_iff_eq] at hw
    have := number_table e he c (by rw [hw]; simp)
    obtain hc | hc := hc
    · rw [this.1] at hc; cases hc
    · exact this.2 hc

theorem classify_separate {t : String} (h : Separate t) : classify t.toList = .value := by
  cases h with
  | plain h => exact classify_plain h
  | @whole ds h0 h1 h =>
    rw [h]
    obtain _ | ⟨c, ds⟩ := ds
    · exact absurd rfl h0
    · obtain ⟨h2, h3⟩ := findOpt_number (.inl (h1 c (by simp)))
      refine classify_odd h2 h3 (.inl ?_)
      have : (c :: ds).all Char.isDigit = true := List.all_eq_true.2 h1
      simp only [negativeNumber, this]
      rfl
  | @decimal ds es h0 h1 h2 h =>
    rw [h]
    have hn : negativeNumber ('-' :: (ds ++ '.' :: es)) = true := by
      have hd : (ds ++ '.' :: es).dropWhile Char.isDigit = '.' :: es := by
        rw [List.dropWhile_append_of_pos h1]
        rfl
      have he : es.all Char.isDigit = true := List.all_eq_true.2 h2
      simp only [negativeNumber, hd, he]
      cases es with
      | nil => exact absurd rfl h0
      | cons x es => simp
    obtain _ | ⟨c, ds⟩ := ds
    · obtain ⟨h3, h4⟩ := findOpt_number (c := '.') (.inr rfl)
      exact classify_odd h3 h4 (.inl hn)
    · obtain ⟨h3, h4⟩ := findOpt_number (.inl (h1 c (by simp)))
      exact classify_odd h3 h4 (.inl hn)
  | @blank c r h0 h1 h2 h =>
    rw [h]
    refine classify_odd h0 ?_ (.inr h2)
    unfold findOpt
    rw [Option.map_eq_none_iff, List.find?_eq_none]
    intro e he hw
    rw [beq_iff_eq] at hw
    exact h1 e.1 (names_all.1 (List.mem_map.2 ⟨e, he, rfl⟩)) hw

theorem req_text {k : Conv} {r : Request} {t : String} (h : r.Text k t) (p : Parsed) :
    (reqOpt r).arity ≠ .none ∧ store k (reqOpt r) t p = some (reqStore p r) := by
  cases r <;> simp only [Request.Text] at h
  all_goals first
    | (obtain ⟨rfl, h⟩ := h; exact ⟨nofun, if_pos h⟩)
    | (subst h; exact ⟨nofun, rfl⟩)
    | exact ⟨nofun, by simp [store, reqOpt, reqStore, h]⟩

theorem req_bare {r : Request} (h : r.Bare) (p : Parsed) :
    (reqOpt r).arity ≠ .one ∧ reqOpt r ≠ .help ∧ storeFlag (reqOpt r) p = reqStore p r := by
  cases r <;> simp only [Request.Bare] at h
  all_goals first
    | exact ⟨nofun, nofun, rfl⟩
    | (subst h; exact ⟨nofun, nofun, rfl⟩)

/-- A word with its kind. -/
def cls (w : String) : String × Word := (w, classify w.toList)

/-- The words do not begin with a text. -/
def AtName : List (String × Word) → Prop
  | [] => True
  | e :: _ => e.2 ≠ .value

theorem readWords_bare (k : Conv) {s : String} {o : Opt} {r : List (String × Word)} (hr : AtName r) (ho : o.arity ≠ .one)
    (hh : o ≠ .help) (p : Parsed) (b : Bool) :
    readWords k ((s, .opt o none) :: r) p b = readWords k r (storeFlag o p) b := by
  obtain _ | ⟨⟨v, c⟩, r⟩ := r
  · have e : readWords k [(s, .opt o none)] p b = match o.arity with
        | .one => .refused
        | _ => if o = .help then .help else readWords k [] (storeFlag o p) b := by
      cases o <;> rfl
    rw [e]
    split
    · rename_i h; exact absurd h ho
    · rw [if_neg hh]
  · have hr : c ≠ .value := hr
    rw [readWords]
    · split
      · rename_i h; exact absurd h ho
      · rw [if_neg hh]
    · intro v' r' h
      simp only [List.cons.injEq, Prod.mk.injEq] at h
      exact hr h.1.2

theorem read_spelled {k : Conv} {r : Request} {ws : List String} (h : Spelled k r ws) {rest : List (String × Word)}
    (hr : AtName rest) (p : Parsed) (b : Bool) :
    readWords k (ws.map cls ++ rest) p b = readWords k rest (reqStore p r) b := by
  cases h with
  | bare hn hb =>
    obtain ⟨h1, h2, h3⟩ := req_bare hb p
    have hc := (classify_called hn).1
    simp only [List.map_cons, List.map_nil, cls, hc, List.cons_append, List.nil_append]
    rw [readWords_bare k hr h1 h2, h3]
  | @apart name t hn ht hp =>
    obtain ⟨h1, h2⟩ := req_text ht p
    have hc := (classify_called hn).1
    simp only [List.map_cons, List.map_nil, cls, hc, classify_separate hp, List.cons_append, List.nil_append]
    rw [readWords]
    split
    · rename_i h; exact absurd h h1
    · rw [h2]
  | @joined name t hn ht =>
    obtain ⟨h1, h2⟩ := req_text ht p
    simp only [List.map_cons, List.map_nil, cls, (classify_called hn).2 t h1, List.cons_append, List.nil_append]
    rw [readWords, if_neg h1, String.ofList_toList, h2]
  | @glued name t hn hl ht he hh =>
    obtain ⟨h1, h2⟩ := req_text ht p
    simp only [List.map_cons, List.map_nil, cls, classify_glued hn hl he hh h1, List.cons_append, List.nil_append]
    rw [readWords, if_neg h1, String.ofList_toList, h2]

theorem atName_opt {w : String} {o : Opt} {v : Option (List Char)} (h : classify w.toList = .opt o v)
    {rest : List (String × Word)} : AtName (cls w :: rest) := by
  change classify w.toList ≠ .value
  rw [h]
  simp

theorem spelled_atName {k : Conv} {r : Request} {ws : List String} (h : Spelled k r ws) (rest : List (String × Word)) :
    AtName (ws.map cls ++ rest) := by
  cases h with
  | bare hn hb => exact atName_opt (classify_called hn).1
  | apart hn ht hp => exact atName_opt (classify_called hn).1
  | joined hn ht => exact atName_opt ((classify_called hn).2 _ (req_text ht {}).1)
  | glued hn hl ht he hh => exact atName_opt (classify_glued hn hl he hh (req_text ht {}).1)

theorem spelled_known {k : Conv} {r : Request} {ws : List String} (h : Spelled k r ws) :
    ∀ w ∈ ws, classify w.toList ≠ .other := by
  cases h with
  | bare hn hb =>
    have hc := (classify_called hn).1
    simp [hc]
  | apart hn ht hp =>
    have hc := (classify_called hn).1
    simp [hc, classify_separate hp]
  | joined hn ht =>
    intro w hw
    rw [List.mem_singleton] at hw
    subst hw
    rw [(classify_called hn).2 _ (req_text ht {}).1]
    simp
  | glued hn hl ht he hh =>
    intro w hw
    rw [List.mem_singleton] at hw
    subst hw
    rw [classify_glued hn hl he hh (req_text ht {}).1]
    simp

theorem all_atName {k : Conv} {rs : List (Request × List String)} (h : ∀ e ∈ rs, Spelled k e.1 e.2) :
    AtName ((rs.flatMap (·.2)).map cls) := by
  obtain _ | ⟨e, rs⟩ := rs
  · trivial
  · rw [List.flatMap_cons, List.map_append]
    exact spelled_atName (h e (by simp)) _

theorem read_all {k : Conv} {rs : List (Request × List String)} (h : ∀ e ∈ rs, Spelled k e.1 e.2) (p : Parsed) :
    readWords k ((rs.flatMap (·.2)).map cls) p false = .ok ((rs.map (·.1)).foldl reqStore p) := by
  induction rs generalizing p with
  | nil => rfl
  | cons e rs ih =>
    have h' : ∀ e ∈ rs, Spelled k e.1 e.2 := fun x hx => h x (List.mem_cons_of_mem _ hx)
    rw [List.flatMap_cons, List.map_append, read_spelled (h e (by simp)) (all_atName h'), ih h']
    rfl

theorem read_before {k : Conv} {rs : List (Request × List String)} (h : ∀ e ∈ rs, Spelled k e.1 e.2)
    {rest : List (String × Word)} (hr : AtName rest) (p : Parsed) (b : Bool) :
    readWords k ((rs.flatMap (·.2)).map cls ++ rest) p b = readWords k rest ((rs.map (·.1)).foldl reqStore p) b := by
  induction rs generalizing p with
  | nil => rfl
  | cons e rs ih =>
    have h' : ∀ e ∈ rs, Spelled k e.1 e.2 := fun x hx => h x (List.mem_cons_of_mem _ hx)
    have hn : AtName ((rs.flatMap (·.2)).map cls ++ rest) := by
      obtain _ | ⟨e', rs⟩ := rs
      · exact hr
      · rw [List.flatMap_cons, List.map_append, List.append_assoc]
        exact spelled_atName (h' e' (by simp)) _
    rw [List.flatMap_cons, List.map_append, List.append_assoc, read_spelled (h e (by simp)) hn, ih h']
    rfl

theorem parse_known {k : Conv} {ws : List String} (h : ∀ w ∈ ws, classify w.toList ≠ .other) :
    parseArgs k ws = readWords k (ws.map cls) {} false := by
  unfold parseArgs
  simp only
  rw [if_neg]
  · rfl
  · simp only [List.any_map, List.any_eq_true, Function.comp, not_exists, not_and]
    intro w hw
    have := h w hw
    split
    · rename_i h'; exact absurd h' this
    · simp

theorem lastOr_snoc {α : Type} (f : Request → Option α) (rs : List Request) (r : Request) (d : α) :
    lastOr f (rs ++ [r]) d = (f r).getD (lastOr f rs d) := by
  unfold lastOr
  rw [List.filterMap_append]
  cases h : f r <;> simp [h]

theorem meant_all (rs : List Request) : Meant rs (rs.foldl reqStore {}) := by
  induction rs using List.reverseRecOn with
  | nil => constructor <;> simp [lastOr]
  | append_singleton rs r ih =>
    rw [List.foldl_append, List.foldl_cons, List.foldl_nil]
    generalize rs.foldl reqStore {} = p at ih ⊢
    obtain ⟨h1, h2, h3, h4, h5, h6, h7, h8, h9, h10, h11, h12, h13⟩ := ih
    constructor <;> simp only [lastOr_snoc, List.mem_append, List.mem_singleton, ← h1, ← h2, ← h3, ← h4, ← h5, ← h6, ← h7,
      ← h8, ← h9, ← h10, ← h11, ← h12, ← h13] <;> cases r <;> simp [reqStore]

end NPE.Cli
