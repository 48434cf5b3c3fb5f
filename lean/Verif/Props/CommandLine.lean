import Verif.Proofs.CommandLine

/-
The words of the command line.

* `C162_reads`: the words of any list of requests are read as what is asked for: for each option the last request
  counts, and an option that is not mentioned keeps its default.
* `C162_order`: the order of requests for different options does not matter, nor does their spelling.
* `C162_every`: every combination of options can be asked for.
* `C162_refused`: a device, a congestion model or a number that is not allowed is refused with status 2, whatever else
  is asked for.
* `C162_stray`: words that belong to no option are refused.
* `C162_status`: refused words end the program with status 2, the request for help with status 0.
* `C162_ambiguous`: the beginning of several names is never taken for one of them.
* `C162_missing`: options that need a text are refused without one.
* `C162_program`: the program runs with the options asked for and the files that they name.
* `C163_violated`, `C163_partial`: without words, the configuration is not the default one of the library: a timestep
  has 32 cycles instead of 128; apart from that (and the names of files) the two agree.
-/

namespace NPE.Props

open NPE.Cli NPE.Spec.CommandLine

/-- Property C162. -/
theorem C162_reads (k : Conv) (rs : List (Request × List String)) (h : ∀ e ∈ rs, Spelled k e.1 e.2) :
    ∃ p, parseArgs k (rs.flatMap (·.2)) = .ok p ∧ Meant (rs.map (·.1)) p := by
  refine ⟨_, ?_, meant_all _⟩
  rw [parse_known, read_all h]
  intro w hw
  obtain ⟨e, he, hw⟩ := List.mem_flatMap.1 hw
  exact spelled_known (h e he) w hw

/-- What is asked for is unique. -/
theorem meant_unique {rs : List Request} {p p' : Parsed} (h : Meant rs p) (h' : Meant rs p') : p = p' := by
  obtain ⟨⟨a1, a2, a3, a4, a5, a6, a7, a8, a9, a10, a11⟩, v, t⟩ := p
  obtain ⟨⟨b1, b2, b3, b4, b5, b6, b7, b8, b9, b10, b11⟩, v', t'⟩ := p'
  obtain ⟨h1, h2, h3, h4, h5, h6, h7, h8, h9, h10, h11, h12, h13⟩ := h
  obtain ⟨g1, g2, g3, g4, g5, g6, g7, g8, g9, g10, g11, g12, g13⟩ := h'
  simp only at h1 h2 h3 h4 h5 h6 h7 h8 h9 h10 h11 h12 h13 g1 g2 g3 g4 g5 g6 g7 g8 g9 g10 g11 g12 g13
  have e9 := Bool.eq_iff_iff.2 (h9.trans g9.symm)
  have e10 := Bool.eq_iff_iff.2 (h10.trans g10.symm)
  have e11 := Bool.eq_iff_iff.2 (h11.trans g11.symm)
  have e12 := Bool.eq_iff_iff.2 (h12.trans g12.symm)
  have e13 := Bool.eq_iff_iff.2 (h13.trans g13.symm)
  rw [h1, h2, h3, h4, h5, h6, h7, h8, e9, e10, e11, e12, e13, ← g1, ← g2, ← g3, ← g4, ← g5, ← g6, ← g7, ← g8]

/-- At most one request for each value. -/
def Distinct (rs : List Request) : Prop := rs.Pairwise fun a b => a.names ≠ b.names

theorem lastOr_perm {α : Type} {f : Request → Option α} {rs rs' : List Request} (hp : rs.Perm rs') (hd : Distinct rs)
    (hf : ∀ a b, (f a).isSome → (f b).isSome → a.names = b.names) (d : α) : lastOr f rs d = lastOr f rs' d := by
  have hlen : ∀ l : List Request, Distinct l → (l.filterMap f).length ≤ 1 := by
    intro l hl
    induction l with
    | nil => simp
    | cons a l ih =>
      rw [Distinct, List.pairwise_cons] at hl
      rw [List.filterMap_cons]
      cases ha : f a with
      | none => exact ih hl.2
      | some x =>
        have : l.filterMap f = [] := by
          rw [List.filterMap_eq_nil_iff]
          intro b hb
          by_contra hne
          exact hl.1 b hb (hf a b (by simp [ha]) (Option.isSome_iff_ne_none.2 hne))
        simp [this]
  have hpm := hp.filterMap f
  have h1 := hlen rs hd
  unfold lastOr
  generalize rs.filterMap f = u at hpm h1
  generalize rs'.filterMap f = v at hpm
  obtain _ | ⟨a, u⟩ := u
  · rw [List.nil_perm.1 hpm]
  · obtain rfl : u = [] := by simpa using h1
    rw [List.singleton_perm.1 hpm]

/-- The order of different options and the choice among the spellings do not matter. -/
theorem C162_order (k : Conv) (rs rs' : List (Request × List String)) (h : ∀ e ∈ rs, Spelled k e.1 e.2)
    (h' : ∀ e ∈ rs', Spelled k e.1 e.2) (hp : (rs.map (·.1)).Perm (rs'.map (·.1))) (hd : Distinct (rs.map (·.1))) :
    parseArgs k (rs.flatMap (·.2)) = parseArgs k (rs'.flatMap (·.2)) := by
  obtain ⟨p, e, m⟩ := C162_reads k rs h
  obtain ⟨p', e', m'⟩ := C162_reads k rs' h'
  rw [e, e']
  congr 1
  refine meant_unique m ?_
  obtain ⟨g1, g2, g3, g4, g5, g6, g7, g8, g9, g10, g11, g12, g13⟩ := m'
  constructor
  all_goals first
    | (simp only [g1, g2, g3, g4, g5, g6, g7, g8]
       refine (lastOr_perm hp hd ?_ _).symm
       intro a b ha hb
       cases a <;> (simp at ha; try (cases b <;> (simp at hb; try rfl))))
    | (simp only [g9, g10, g11, g12, g13]; exact hp.mem_iff.symm)

/-- Every combination of options can be asked for, as far as its numbers can be written. -/
theorem C162_every (k : Conv) (a : Args) (v : Int) (t : String) (hd : a.device ∈ devices) (hm : a.congModel ∈ models)
    (hi : ∀ n, ∃ s, k.int s = some n) (hf : ∃ s, k.float s = some a.scale) :
    ∃ words, parseArgs k words = .ok ⟨a, v, t⟩ := by
  obtain ⟨sc, hsc⟩ := hi a.cycles
  obtain ⟨sv, hsv⟩ := hi v
  obtain ⟨sf, hsf⟩ := hf
  let flag (b : Bool) (r : Request) (name : String) : List (Request × List String) := if b then [(r, [name])] else []
  let rs : List (Request × List String) :=
    [(.cycles a.cycles, ["-c" ++ "=" ++ sc]), (.device a.device, ["-d" ++ "=" ++ a.device]),
     (.congModel a.congModel, ["--cong-model" ++ "=" ++ a.congModel]), (.workload a.workload, ["-w" ++ "=" ++ a.workload]),
     (.scale a.scale, ["--scale-workload-schedule" ++ "=" ++ sf]),
     (.timelinePath a.timelinePath, ["--timeline-json-filepath" ++ "=" ++ a.timelinePath]),
     (.topology t, ["--topology-json" ++ "=" ++ t]), (.verbosity v, ["-v" ++ "=" ++ sv])] ++
    (flag a.noInference .noInference "--no-injection-rate-inference" ++ (flag a.emit .emit "-e" ++
      (flag a.isTrace .isTrace "-t" ++ (flag a.compress .compress "--compress-timeline-output-file" ++
        flag a.legacy .legacy "--use-legacy-timeline-format"))))
  have hflag : ∀ b r name, name ∈ r.names → r.Bare → ∀ e ∈ flag b r name, Spelled k e.1 e.2 := by
    intro b r name hn hb e he
    cases b <;> simp only [flag, if_true, if_false, List.mem_singleton, List.not_mem_nil, Bool.false_eq_true] at he
    subst he
    exact .bare (.full hn) hb
  have hs : ∀ e ∈ rs, Spelled k e.1 e.2 := by
    intro e he
    simp only [rs, List.mem_append, List.mem_cons, List.not_mem_nil, or_false] at he
    rcases he with (rfl | rfl | rfl | rfl | rfl | rfl | rfl | rfl) | he | he | he | he | he
    · exact .joined (.full (by simp [Request.names])) hsc
    · exact .joined (.full (by simp [Request.names])) ⟨rfl, hd⟩
    · exact .joined (.full (by simp [Request.names])) ⟨rfl, hm⟩
    · exact .joined (.full (by simp [Request.names])) rfl
    · exact .joined (.full (by simp [Request.names])) hsf
    · exact .joined (.full (by simp [Request.names])) rfl
    · exact .joined (.full (by simp [Request.names])) rfl
    · exact .joined (.full (by simp [Request.names])) hsv
    · exact hflag _ .noInference _ (by simp [Request.names]) trivial e he
    · exact hflag _ .emit _ (by simp [Request.names]) trivial e he
    · exact hflag _ .isTrace _ (by simp [Request.names]) trivial e he
    · exact hflag _ .compress _ (by simp [Request.names]) trivial e he
    · exact hflag _ .legacy _ (by simp [Request.names]) trivial e he
  obtain ⟨p, e, m⟩ := C162_reads k rs hs
  refine ⟨_, e.trans ?_⟩
  congr 1
  rw [meant_unique m (meant_all _)]
  obtain ⟨a1, a2, a3, a4, a5, a6, a7, a8, a9, a10, a11⟩ := a
  cases a5 <;> cases a6 <;> cases a7 <;> cases a8 <;> cases a11 <;> rfl

/-- A request that is not allowed, as it is written. -/
inductive Forbidden (k : Conv) : List String → Prop
  | device {name t : String} : name ∈ ["-d", "--device"] →
      t ∉ ["wormhole_b0", "N150", "N300", "T3K", "blackhole", "P100", "P150"] → Forbidden k [name ++ "=" ++ t]
  | congModel {t : String} : t ∉ ["none", "fast"] → Forbidden k ["--cong-model" ++ "=" ++ t]
  | cycles {name t : String} : name ∈ ["-c", "--cycles-per-timestep"] → k.int t = none → Forbidden k [name ++ "=" ++ t]
  | scale {t : String} : k.float t = none → Forbidden k ["--scale-workload-schedule" ++ "=" ++ t]
  | value {name t : String} : name ∈ ["--no-injection-rate-inference", "--emit-timeline-file",
      "--workload-is-noc-trace", "--compress-timeline-output-file", "--use-legacy-timeline-format"] →
      Forbidden k [name ++ "=" ++ t]

theorem forbidden_word {k : Conv} {ws : List String} (h : Forbidden k ws) : ∃ w o v, ws = [w] ∧
    classify w.toList = .opt o (some v) ∧ (o.arity = .none ∨ ∀ p, store k o (String.ofList v) p = none) := by
  cases h with
  | @device name t hn ht =>
    have hm : (name, Opt.device) ∈ optNames := by
      simp only [List.mem_cons, List.not_mem_nil, or_false] at hn
      obtain rfl | rfl := hn <;> simp [optNames]
    exact ⟨_, _, _, rfl, classify_joined hm (by decide), .inr fun p => by rw [String.ofList_toList]; exact if_neg ht⟩
  | @congModel t ht =>
    have hm : ("--cong-model", Opt.congModel) ∈ optNames := by simp [optNames]
    exact ⟨_, _, _, rfl, classify_joined hm (by decide), .inr fun p => by rw [String.ofList_toList]; exact if_neg ht⟩
  | @cycles name t hn ht =>
    have hm : (name, Opt.cycles) ∈ optNames := by
      simp only [List.mem_cons, List.not_mem_nil, or_false] at hn
      obtain rfl | rfl := hn <;> simp [optNames]
    exact ⟨_, _, _, rfl, classify_joined hm (by decide), .inr fun p => by simp [String.ofList_toList, store, ht]⟩
  | @scale t ht =>
    have hm : ("--scale-workload-schedule", Opt.scale) ∈ optNames := by simp [optNames]
    exact ⟨_, _, _, rfl, classify_joined hm (by decide), .inr fun p => by simp [String.ofList_toList, store, ht]⟩
  | @value name t hn =>
    obtain ⟨o, ho, hm, hl⟩ : ∃ o : Opt, o.arity = .none ∧ (name, o) ∈ optNames ∧ name.toList.tail.head? = some '-' := by
      simp only [List.mem_cons, List.not_mem_nil, or_false] at hn
      rcases hn with rfl | rfl | rfl | rfl | rfl
      · exact ⟨.noInference, rfl, by simp [optNames], by decide +kernel⟩
      · exact ⟨.emit, rfl, by simp [optNames], by decide +kernel⟩
      · exact ⟨.isTrace, rfl, by simp [optNames], by decide +kernel⟩
      · exact ⟨.compress, rfl, by simp [optNames], by decide +kernel⟩
      · exact ⟨.legacy, rfl, by simp [optNames], by decide +kernel⟩
    exact ⟨_, o, t.toList, rfl, classify_joined_long hm hl, .inl ho⟩

/-- A request that is not allowed is refused, whatever is asked for before and after it. -/
theorem C162_refused (k : Conv) (rs rs' : List (Request × List String)) (ws : List String)
    (h : ∀ e ∈ rs, Spelled k e.1 e.2) (h' : ∀ e ∈ rs', Spelled k e.1 e.2) (hf : Forbidden k ws) :
    parseArgs k (rs.flatMap (·.2) ++ ws ++ rs'.flatMap (·.2)) = .refused := by
  obtain ⟨w, o, v, rfl, hc, ho⟩ := forbidden_word hf
  rw [parse_known]
  · have hn : AtName (cls w :: (rs'.flatMap (·.2)).map cls) := atName_opt hc
    rw [List.map_append, List.map_append, List.append_assoc, List.map_cons, List.map_nil, List.singleton_append,
      read_before h hn]
    simp only [cls, hc]
    rw [readWords]
    obtain ho | ho := ho
    · rw [if_pos ho]
    · split
      · rfl
      · rw [ho]
  · intro x hx
    simp only [List.mem_append, List.mem_singleton, List.mem_flatMap] at hx
    obtain (⟨e, he, hx⟩ | rfl) | ⟨e, he, hx⟩ := hx
    · exact spelled_known (h e he) x hx
    · rw [hc]; simp
    · exact spelled_known (h' e he) x hx

/-- Words that belong to no option: a long name that no name of an option begins with, or a text after an option that
takes none. -/
inductive Stray : List String → Prop
  | unknown {w : String} : w.toList.take 2 = ['-', '-'] → ' ' ∉ w.toList → '=' ∉ w.toList →
      (∀ n ∈ knownNames, ¬ w.toList <+: n.toList) → Stray [w]
  | text {r : Request} {name t : String} : r ∈ [.noInference, .emit, .isTrace, .compress, .legacy] → name ∈ r.names →
      t.toList.head? ≠ some '-' → Stray [name, t]

theorem classify_unknown {w : String} (h : w.toList.take 2 = ['-', '-']) (h1 : ' ' ∉ w.toList) (h2 : '=' ∉ w.toList)
    (h3 : ∀ e ∈ optNames, ¬ w.toList <+: e.1.toList) : classify w.toList = .unknown := by
  have hf : findOpt w.toList = none := by
    unfold findOpt
    rw [Option.map_eq_none_iff, List.find?_eq_none]
    intro e he hw
    rw [beq_iff_eq] at hw
    exact h3 e he (hw ▸ List.prefix_rfl)
  generalize w.toList = l at *
  obtain _ | ⟨a, _ | ⟨b, l⟩⟩ := l
  · simp at h
  · simp at h
  · simp only [List.take_succ_cons, List.take_zero, List.cons.injEq, and_true] at h
    obtain ⟨rfl, rfl⟩ := h
    have hs := splitAtEq_none h2
    have ha : abbreviation ('-' :: '-' :: l) = none := by
      unfold abbreviation
      simp only [hs]
      rw [List.filter_eq_nil_iff.2]
      intro e he hp
      exact h3 e he (List.isPrefixOf_iff_prefix.1 hp)
    have hb : beginsName ('-' :: '-' :: l) = false := by
      unfold beginsName
      simp only [hs, List.any_eq_false]
      intro e he hp
      exact h3 e he (List.isPrefixOf_iff_prefix.1 hp)
    have hn : negativeNumber ('-' :: '-' :: l) = false := by
      unfold negativeNumber
      have hd : Char.isDigit '-' = false := by decide
      simp [hd]
    have hg : glued ('-' :: '-' :: l) = none := by
      have hd : findOpt ['-', '-'] = none := by decide +kernel
      cases l with
      | nil => rfl
      | cons x l =>
        unfold glued
        simp only [hd, Option.bind_none]
    unfold classify
    simp only [hf, hs, ha, hg, hb, hn, h1, Option.bind_none, if_false, Bool.false_eq_true]
    rw [if_neg (by simp)]

theorem read_extra {k : Conv} {rs : List (Request × List String)} (h : ∀ e ∈ rs, Spelled k e.1 e.2) (p : Parsed) :
    readWords k ((rs.flatMap (·.2)).map cls) p true = .refused := by
  have := read_before h (rest := []) trivial p true
  rw [List.append_nil] at this
  rw [this]
  rfl

/-- Words that belong to no option are refused, whatever is asked for before and after them. -/
theorem C162_stray (k : Conv) (rs rs' : List (Request × List String)) (ws : List String)
    (h : ∀ e ∈ rs, Spelled k e.1 e.2) (h' : ∀ e ∈ rs', Spelled k e.1 e.2) (hf : Stray ws) :
    parseArgs k (rs.flatMap (·.2) ++ ws ++ rs'.flatMap (·.2)) = .refused := by
  have hrest : ∀ x ∈ rs'.flatMap (·.2), classify x.toList ≠ .other := by
    intro x hx
    obtain ⟨e, he, hx⟩ := List.mem_flatMap.1 hx
    exact spelled_known (h' e he) x hx
  have hfirst : ∀ x ∈ rs.flatMap (·.2), classify x.toList ≠ .other := by
    intro x hx
    obtain ⟨e, he, hx⟩ := List.mem_flatMap.1 hx
    exact spelled_known (h e he) x hx
  cases hf with
  | @unknown w h1 h2 h3 h4 =>
    have hc := classify_unknown h1 h2 h3 fun e he => h4 e.1 (names_all.1 (List.mem_map.2 ⟨e, he, rfl⟩))
    rw [parse_known]
    · have hn : AtName (cls w :: (rs'.flatMap (·.2)).map cls) := by
        change classify w.toList ≠ .value
        rw [hc]
        simp
      rw [List.map_append, List.map_append, List.append_assoc, List.map_cons, List.map_nil, List.singleton_append,
        read_before h hn]
      simp only [cls, hc]
      rw [readWords]
      exact read_extra h' _
    · intro x hx
      simp only [List.mem_append, List.mem_singleton] at hx
      obtain (hx | rfl) | hx := hx
      · exact hfirst x hx
      · rw [hc]; simp
      · exact hrest x hx
  | @text r name t hr hn ht =>
    have hc := (names_table _ (req_name hn)).2.2.2.2
    simp only at hc
    have hv := classify_plain ht
    have ha : (reqOpt r).arity = .none ∧ reqOpt r ≠ .help := by
      simp only [List.mem_cons, List.not_mem_nil, or_false] at hr
      rcases hr with rfl | rfl | rfl | rfl | rfl <;> exact ⟨rfl, nofun⟩
    rw [parse_known]
    · rw [List.map_append, List.map_append, List.append_assoc, List.map_cons, List.map_cons, List.map_nil,
        List.cons_append, List.cons_append, List.nil_append, read_before h (atName_opt hc)]
      simp only [cls, hc, hv]
      rw [readWords, ha.1]
      simp only [ha.2, if_false]
      rw [readWords]
      exact read_extra h' _
    · intro x hx
      simp only [List.mem_append, List.mem_cons, List.not_mem_nil, or_false] at hx
      obtain (hx | rfl | rfl) | hx := hx
      · exact hfirst x hx
      · rw [hc]; simp
      · rw [hv]; simp
      · exact hrest x hx

/-- Words that are refused end the program with status 2, the request for help ends it with status 0; nothing is read
or simulated. -/
theorem C162_status (fp : FP) (ho : HashOrder) (ord : List (Int × List Int) → List (Int × List Int)) (k : Conv)
    (files : String → InputFile) (answer : Bool) (rs rs' : List (Request × List String))
    (h : ∀ e ∈ rs, Spelled k e.1 e.2) (h' : ∀ e ∈ rs', Spelled k e.1 e.2) :
    (∀ ws, Forbidden k ws ∨ Stray ws →
      program fp ho ord k files answer (rs.flatMap (·.2) ++ ws ++ rs'.flatMap (·.2)) = some (.ok 2)) ∧
    (∀ w ∈ ["-h", "--help"],
      program fp ho ord k files answer (rs.flatMap (·.2) ++ [w] ++ rs'.flatMap (·.2)) = some (.ok 0)) := by
  refine ⟨fun ws hw => ?_, fun w hw => ?_⟩
  · unfold program
    obtain hw | hw := hw
    · rw [C162_refused k rs rs' ws h h' hw]
    · rw [C162_stray k rs rs' ws h h' hw]
  · have hm : (w, Opt.help) ∈ optNames := by
      simp only [List.mem_cons, List.not_mem_nil, or_false] at hw
      obtain rfl | rfl := hw <;> simp [optNames]
    have hc := (names_table _ hm).2.2.2.2
    simp only at hc
    have e : parseArgs k (rs.flatMap (·.2) ++ [w] ++ rs'.flatMap (·.2)) = .help := by
      rw [parse_known]
      · rw [List.map_append, List.map_append, List.append_assoc, List.map_cons, List.map_nil, List.singleton_append,
          read_before h (atName_opt hc)]
        simp only [cls, hc]
        generalize (rs'.flatMap (·.2)).map cls = rest
        obtain _ | ⟨⟨v, c⟩, rest⟩ := rest
        · rfl
        · cases c <;> rfl
      · intro x hx
        simp only [List.mem_append, List.mem_singleton, List.mem_flatMap] at hx
        obtain (⟨e, he, hx⟩ | rfl) | ⟨e, he, hx⟩ := hx
        · exact spelled_known (h e he) x hx
        · rw [hc]; simp
        · exact spelled_known (h' e he) x hx
    unfold program
    rw [e]

theorem classify_ambiguous {w : String} (h : w.toList.take 2 = ['-', '-']) (h1 : '=' ∉ w.toList) (h2 : w ∉ knownNames)
    {n n' : String} (hn : n ∈ knownNames) (hn' : n' ∈ knownNames) (hne : n ≠ n') (hp : w.toList <+: n.toList)
    (hp' : w.toList <+: n'.toList) : classify w.toList = .other := by
  have hf : findOpt w.toList = none := by
    unfold findOpt
    rw [Option.map_eq_none_iff, List.find?_eq_none]
    intro e he hw
    rw [beq_iff_eq] at hw
    have : e.1 = w := String.toList_inj.1 hw
    exact h2 (this ▸ names_all.1 (List.mem_map.2 ⟨e, he, rfl⟩))
  obtain ⟨e, he, rfl⟩ := List.mem_map.1 (names_all.2.1 hn)
  obtain ⟨e', he', rfl⟩ := List.mem_map.1 (names_all.2.1 hn')
  generalize w.toList = l at *
  obtain _ | ⟨a, _ | ⟨b, l⟩⟩ := l
  · simp at h
  · simp at h
  · simp only [List.take_succ_cons, List.take_zero, List.cons.injEq, and_true] at h
    obtain ⟨rfl, rfl⟩ := h
    have hs := splitAtEq_none h1
    have ha : abbreviation ('-' :: '-' :: l) = none := by
      unfold abbreviation
      simp only [hs]
      split
      · rename_i x hx
        have m1 : e ∈ [x] := hx ▸ List.mem_filter.2 ⟨he, List.isPrefixOf_iff_prefix.2 hp⟩
        have m2 : e' ∈ [x] := hx ▸ List.mem_filter.2 ⟨he', List.isPrefixOf_iff_prefix.2 hp'⟩
        rw [List.mem_singleton] at m1 m2
        exact absurd (by rw [m1, m2]) hne
      · rfl
    have hb : beginsName ('-' :: '-' :: l) = true := by
      unfold beginsName
      simp only [hs, List.any_eq_true]
      exact ⟨e, he, List.isPrefixOf_iff_prefix.2 hp⟩
    have hg : glued ('-' :: '-' :: l) = none := by
      have hd : findOpt ['-', '-'] = none := by decide +kernel
      cases l with
      | nil => rfl
      | cons x l =>
        unfold glued
        simp only [hd, Option.bind_none]
    unfold classify
    simp only [hf, hs, ha, hg, hb, Option.bind_none, if_true]
    rw [if_neg (by simp)]

/-- The beginning of several names, which is not itself a name, is never taken for one of them. (The word `--` has a
meaning of its own and is left out.) -/
theorem C162_ambiguous (k : Conv) (ws : List String) {w : String} (hw : w ∈ ws) (h : w.toList.take 2 = ['-', '-'])
    (_h0 : w ≠ "--") (h1 : '=' ∉ w.toList) (h2 : w ∉ knownNames) {n n' : String} (hn : n ∈ knownNames)
    (hn' : n' ∈ knownNames) (hne : n ≠ n') (hp : w.toList <+: n.toList) (hp' : w.toList <+: n'.toList) (p : Parsed) :
    parseArgs k ws ≠ .ok p := by
  have hc := classify_ambiguous h h1 h2 hn hn' hne hp hp'
  unfold parseArgs
  simp only
  rw [if_pos]
  · simp
  · rw [List.any_map, List.any_eq_true]
    exact ⟨w, hw, by simp [hc]⟩

/-- `--wor` may be `--workload` or `--workload-is-noc-trace`. -/
example (k : Conv) (p : Parsed) : parseArgs k ["--wor", "a.json"] ≠ .ok p :=
  C162_ambiguous k _ (w := "--wor") (n := "--workload") (n' := "--workload-is-noc-trace") (by simp) (by decide +kernel)
    (by decide +kernel) (by decide +kernel) (by decide +kernel) (by decide +kernel) (by decide +kernel)
    (by decide +kernel) (by decide +kernel) (by decide +kernel) p
/-- An option that needs a text is refused without one, whatever is asked for before and after it. -/
theorem C162_missing (k : Conv) (rs rs' : List (Request × List String)) (h : ∀ e ∈ rs, Spelled k e.1 e.2)
    (h' : ∀ e ∈ rs', Spelled k e.1 e.2) {w : String}
    (hw : w ∈ ["-c", "--cycles-per-timestep", "-d", "--device", "--cong-model", "-w", "--workload",
      "--scale-workload-schedule", "--timeline-json-filepath", "--topology-json"]) :
    parseArgs k (rs.flatMap (·.2) ++ [w] ++ rs'.flatMap (·.2)) = .refused := by
  obtain ⟨o, hc, ho⟩ : ∃ o, classify w.toList = .opt o none ∧ o.arity = .one := by
    simp only [List.mem_cons, List.not_mem_nil, or_false] at hw
    rcases hw with rfl | rfl | rfl | rfl | rfl | rfl | rfl | rfl | rfl | rfl
    exacts [⟨.cycles, by decide +kernel, rfl⟩, ⟨.cycles, by decide +kernel, rfl⟩, ⟨.device, by decide +kernel, rfl⟩,
      ⟨.device, by decide +kernel, rfl⟩, ⟨.congModel, by decide +kernel, rfl⟩, ⟨.workload, by decide +kernel, rfl⟩,
      ⟨.workload, by decide +kernel, rfl⟩, ⟨.scale, by decide +kernel, rfl⟩, ⟨.timelinePath, by decide +kernel, rfl⟩,
      ⟨.topology, by decide +kernel, rfl⟩]
  rw [parse_known]
  · rw [List.map_append, List.map_append, List.append_assoc, List.map_cons, List.map_nil, List.singleton_append,
      read_before h (atName_opt hc)]
    have hr := all_atName h'
    generalize (rs'.flatMap (·.2)).map cls = r at *
    simp only [cls, hc]
    obtain _ | ⟨⟨v, c⟩, r⟩ := r
    · cases o <;> first | rfl | cases ho
    · have hr : c ≠ .value := hr
      rw [readWords]
      · rw [ho]
      · intro v' r' e
        simp only [List.cons.injEq, Prod.mk.injEq] at e
        exact hr e.1.2
  · intro x hx
    simp only [List.mem_append, List.mem_singleton, List.mem_flatMap] at hx
    obtain (⟨e, he, hx⟩ | rfl) | ⟨e, he, hx⟩ := hx
    · exact spelled_known (h e he) x hx
    · rw [hc]; simp
    · exact spelled_known (h' e he) x hx

/-- The program runs with what is asked for. -/
theorem C162_program (fp : FP) (ho : HashOrder) (ord : List (Int × List Int) → List (Int × List Int)) (k : Conv)
    (files : String → InputFile) (hfile : files "" = .missing) (answer : Bool) (rs : List (Request × List String))
    (h : ∀ e ∈ rs, Spelled k e.1 e.2) : ∃ p, Meant (rs.map (·.1)) p ∧
      program fp ho ord k files answer (rs.flatMap (·.2)) =
        some (main fp ho ord ⟨files p.args.workload, files p.topology, answer⟩ p.args) := by
  obtain ⟨p, e, m⟩ := C162_reads k rs h
  refine ⟨p, m, ?_⟩
  unfold program
  rw [e]
  simp only
  by_cases ht : p.topology = ""
  · rw [if_pos ht, ht, hfile]
  · rw [if_neg ht]

/-- What C163 asks for: without words, the configuration is the default one of the library. -/
def C163_claim : Prop := ∀ k : Conv, ∃ p, parseArgs k [] = .ok p ∧ p.args.config = .ok {}

/-- Property C163 is violated: the configuration without words is not the default one of the library. -/
theorem C163_violated (k : Conv) : ∃ p cfg, parseArgs k [] = .ok p ∧ p.args.config = .ok cfg ∧
    cfg.cyclesPerTimestep = 32 ∧ ({} : Config).cyclesPerTimestep = 128 :=
  ⟨_, _, rfl, rfl, rfl, rfl⟩

theorem C163_violated_claim : ¬ C163_claim := by
  intro h
  obtain ⟨p, hp, hc⟩ := h ⟨fun _ => none, fun _ => none⟩
  obtain ⟨p', cfg, hp', hc', h32, h128⟩ := C163_violated ⟨fun _ => none, fun _ => none⟩
  rw [hp, Parsing.ok.injEq] at hp'
  subst hp'
  rw [hc, Out.ok.injEq] at hc'
  rw [← hc', h128] at h32
  exact absurd h32 (by decide)

/-- With the length of a timestep of the library it is.  Missing: the same without asking for that length, and for
the name of the timeline file. -/
theorem C163_partial (k : Conv) (t : String) (ht : k.int t = some 128) (files : String → InputFile) (answer : Bool) :
    ∃ p, parseArgs k ["-c" ++ "=" ++ t] = .ok p ∧ p.args.config = .ok {} ∧
      (p.args.timeline ⟨files "", .missing, answer⟩).emit = ({} : TimelineConfig).emit ∧
      (p.args.timeline ⟨files "", .missing, answer⟩).compress = ({} : TimelineConfig).compress ∧
      (p.args.timeline ⟨files "", .missing, answer⟩).legacy = ({} : TimelineConfig).legacy := by
  obtain ⟨p, e, m⟩ := C162_reads k [(.cycles 128, ["-c" ++ "=" ++ t])] (by
    intro e he
    rw [List.mem_singleton] at he
    subst he
    exact .joined (.full (by simp [Request.names])) ht)
  refine ⟨p, e, ?_⟩
  have : p = { args := { cycles := 128 } } := meant_unique m (by constructor <;> simp [lastOr])
  subst this
  exact ⟨rfl, rfl, rfl, rfl⟩

/-- A conversion for tests: numbers of decimal digits only. -/
def digits : Conv where
  int s := if s ≠ "" ∧ s.toList.all Char.isDigit then some (s.toList.foldl (fun n c => 10 * n + (c.toNat - 48)) 0 : Nat) else none
  float _ := none

/-- The last of several requests counts, in any spelling. -/
example : (match parseArgs digits ["-w", "a.json", "--cycles-per-timestep=64", "-e", "-c", "16", "-v", "--device", "N300"] with
    | .ok p => decide (p.args.cycles = 16 ∧ p.args.device = "N300" ∧ p.args.workload = "a.json" ∧ p.args.emit = true ∧
        p.args.legacy = false ∧ p.verbose = 1)
    | _ => false) = true := by
  decide +kernel

/-- A word that follows no option, a path that begins with a dash, a missing text and an unknown device are refused. -/
example : ∀ ws ∈ [["a.json"], ["-w", "-x"], ["-w"], ["-w", "-d", "N300"], ["--device=TG"], ["-e", "yes"], ["--frobnicate"]],
    (match parseArgs digits ws with | .refused => true | _ => false) = true := by
  decide +kernel

/-- Names may be abbreviated as long as they are clear. -/
example : (match parseArgs digits ["--cyc", "64", "--work=x.json", "--dev=N300", "--em"] with
    | .other => true
    | _ => false) = true ∧ (match parseArgs digits ["--cyc", "64", "--workload-is", "--dev=N300", "--em"] with
    | .ok p => decide (p.args.cycles = 64 ∧ p.args.emit = true ∧ p.args.isTrace = true ∧ p.args.device = "N300")
    | _ => false) = true := by
  decide +kernel

/-- A text right after a short name. -/
example : (match parseArgs digits ["-c64", "-v2", "-dN300", "-wa=b.json"] with
    | .ok p => decide (p.args.cycles = 64 ∧ p.verbose = 2 ∧ p.args.device = "N300" ∧ p.args.workload = "a=b.json")
    | _ => false) = true := by
  decide +kernel

/-- What is refused and what prints the help. -/
example : Stray ["--frobnicate"] ∧ Stray ["-e", "yes"] ∧ Forbidden digits ["--device" ++ "=" ++ "TG"] :=
  ⟨.unknown (by decide +kernel) (by decide +kernel) (by decide +kernel) (by decide +kernel),
   .text (r := .emit) (by simp) (by simp [Request.names]) (by decide +kernel), .device (by decide) (by decide)⟩

/-- Negative numbers and texts with blanks are words of their own; other texts with a dash are not. -/
example : Separate "-5" ∧ Separate "-.5" ∧ Separate "-1.25" ∧ Separate "-my file" ∧
    (∀ t ∈ ["-5", "-.5", "-1.25", "-my file"], classify t.toList = .value) ∧
    (∀ t ∈ ["-my", "-5.", "--my", "-e file"], classify t.toList ≠ .value) :=
  ⟨.whole (ds := ['5']) (by decide +kernel) (by decide +kernel) (by decide +kernel),
    .decimal (ds := []) (es := ['5']) (by decide +kernel) (by decide +kernel) (by decide +kernel) (by decide +kernel),
    .decimal (ds := ['1']) (es := ['2', '5']) (by decide +kernel) (by decide +kernel) (by decide +kernel) (by decide +kernel),
    .blank (c := 'm') (r := "y file".toList) (by decide +kernel) (by decide +kernel) (by decide +kernel) (by decide +kernel),
    by decide +kernel, by decide +kernel⟩

/-- The workload is missing. -/
example (k : Conv) : parseArgs k ["-e", "-w", "-t"] = .refused :=
  C162_missing k [(.emit, ["-e"])] [(.isTrace, ["-t"])]
    (by simpa using Spelled.bare (r := .emit) (.full (by simp [Request.names])) trivial)
    (by simpa using Spelled.bare (r := .isTrace) (.full (by simp [Request.names])) trivial) (by simp)

end NPE.Props
