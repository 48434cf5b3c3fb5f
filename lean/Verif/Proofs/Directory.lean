import Verif.Model.Directory
import Verif.Proofs.TableText
import Verif.Props.Analyze
import Verif.Props.Schema

/-
Lemmas for the directory analysis: names of files and runs that write timelines.
-/

namespace NPE.Analyze
open Spec Spec.Analyze Spec.Doc Out Props

/-! ## Names -/

/-- What follows the last occurrence of a character is unique. -/
theorem after_last {x : Char} {a a' b b' : List Char} (h : a ++ x :: b = a' ++ x :: b') (hb : x ∉ b) (hb' : x ∉ b') :
    a = a' ∧ b = b' := by
  rw [List.append_eq_append_iff] at h
  rcases h with ⟨t, ht, h2⟩ | ⟨t, ht, h2⟩
  · cases t with
    | nil => simp at ht h2; exact ⟨ht.symm, h2⟩
    | cons c t =>
      exfalso
      simp only [List.cons_append, List.cons.injEq] at h2
      apply hb
      rw [h2.2]
      simp
  · cases t with
    | nil => simp at ht h2; exact ⟨ht, h2.symm⟩
    | cons c t =>
      exfalso
      simp only [List.cons_append, List.cons.injEq] at h2
      apply hb'
      rw [h2.2]
      simp

theorem denotes_digits {l : List Char} {n : Nat} (h : Denotes l n) : ∀ c ∈ l, c.isDigit = true :=
  ((denotes_iff l n).mp h).2.1

theorem decimal_no_underscore (n : Nat) : '_' ∉ decimal n := by
  intro h
  have := denotes_digits (denotes_decimal n) _ h
  exact absurd this (by decide)

/-- The last part of the name of an operation begins with a letter. -/
theorem text_last (u : OpUID) : ∃ a c b, '_' :: u.text = a ++ '_' :: c :: b ∧ '_' ∉ c :: b ∧ (c = 'I' ∨ c = 't') := by
  obtain ⟨op, trace⟩ := u
  have h0 : '_' ∉ 'I' :: 'D' :: decimal op := by
    simp only [List.mem_cons, not_or]
    exact ⟨by decide, by decide, decimal_no_underscore _⟩
  match trace with
  | none => exact ⟨[], 'I', 'D' :: decimal op, by simp [OpUID.text], h0, .inl rfl⟩
  | some 0 => exact ⟨[], 'I', 'D' :: decimal op, by simp [OpUID.text], h0, .inl rfl⟩
  | some (t + 1) =>
    refine ⟨'_' :: 'I' :: 'D' :: decimal op, 't', "raceID".toList ++ decimal (t + 1), by simp [OpUID.text], ?_, .inr rfl⟩
    rw [List.mem_cons, List.mem_append, not_or, not_or]
    exact ⟨by decide, by decide, decimal_no_underscore _⟩

/-- The path of a timeline without its extension. -/
def stem (d o : List Char) (u : OpUID) : List Char := d ++ '/' :: (o ++ '_' :: u.text)

theorem path_stem (s : Setting) (o : List Char) (u : OpUID) : s.path (timelineName o u) = stem s.outDir o u ++ ".npeviz".toList := by
  unfold Setting.path timelineName stem
  simp

theorem stem_inj {d o o' : List Char} {u v : OpUID} (hu : u.trace ≠ some 0) (hv : v.trace ≠ some 0)
    (h : stem d o u = stem d o' v) : o = o' ∧ u = v := by
  unfold stem at h
  have h := (List.cons.inj (List.append_cancel_left h)).2
  apply C81_timeline_partial hu hv
  unfold timelineName
  simp [h]

/-- A timeline is never a split file. -/
theorem stem_split (d o o' : List Char) (u v : OpUID) (i : Nat) :
    stem d o u ≠ stem d o' v ++ "_split_".toList ++ decimal i := by
  intro h
  obtain ⟨a, c, b, h1, h2, h3⟩ := text_last u
  have e1 : stem d o u = (d ++ '/' :: (o ++ a)) ++ '_' :: c :: b := by
    unfold stem
    rw [h1]
    simp
  have e2 : stem d o' v ++ "_split_".toList ++ decimal i = (stem d o' v ++ "_split".toList) ++ '_' :: decimal i := by
    simp
  rw [e1, e2] at h
  have h4 := (after_last h h2 (decimal_no_underscore i)).2
  have h5 : c.isDigit = true := denotes_digits (denotes_decimal i) c (by rw [← h4]; exact List.mem_cons_self)
  rcases h3 with rfl | rfl <;> exact absurd h5 (by decide)

theorem split_split {d o o' : List Char} {u v : OpUID} {i k : Nat}
    (h : stem d o u ++ "_split_".toList ++ decimal i = stem d o' v ++ "_split_".toList ++ decimal k) :
    stem d o u = stem d o' v ∧ i = k := by
  have e : ∀ (x : List Char) (i : Nat), x ++ "_split_".toList ++ decimal i = (x ++ "_split".toList) ++ '_' :: decimal i := by
    intro x i; simp
  rw [e, e] at h
  obtain ⟨h1, h2⟩ := after_last h (decimal_no_underscore _) (decimal_no_underscore _)
  exact ⟨List.append_cancel_right h1, decimal_injective (denotes_decimal i) (denotes_decimal k) h2⟩

theorem text_no_dot (u : OpUID) : '.' ∉ u.text := by
  have hd : ∀ n, '.' ∉ decimal n := by
    intro n h
    exact absurd (denotes_digits (denotes_decimal n) _ h) (by decide)
  obtain ⟨op, trace⟩ := u
  unfold OpUID.text
  simp only [List.mem_append, not_or]
  refine ⟨⟨by decide, hd _⟩, ?_⟩
  split
  · rw [List.mem_append, not_or]
    exact ⟨by decide, hd _⟩
  · exact List.not_mem_nil

/-- The extension occurs in a path only if it occurs in the directory. -/
theorem stem_no_ext {d o : List Char} (u : OpUID) (hd : ¬ Occurs ".npeviz".toList d) (ho : AllWord o) :
    ¬ Occurs ".npeviz".toList (stem d o u) := by
  rintro ⟨a, b, h⟩
  have hw : '.' ∉ '/' :: (o ++ '_' :: u.text) := by
    simp only [List.mem_cons, List.mem_append, not_or]
    exact ⟨by decide, fun h => absurd (ho _ h) (by decide), by decide, text_no_dot u⟩
  unfold stem at h
  rw [List.append_assoc, List.append_eq_append_iff] at h
  rcases h with ⟨t, ht, h2⟩ | ⟨t, ht, h2⟩
  · apply hw
    rw [h2]
    simp
  · rw [List.append_eq_append_iff] at h2
    rcases h2 with ⟨z, hz, hz2⟩ | ⟨z, hz, hz2⟩
    · exact hd ⟨a, z, by rw [ht, hz, List.append_assoc]⟩
    · cases z with
      | nil =>
        rw [List.append_nil] at hz
        exact hd ⟨a, [], by rw [ht, hz, List.append_nil]⟩
      | cons c z =>
        have hc : c = '/' := by
          have := congrArg List.head? hz2
          simpa using this.symm
        have : '/' ∈ ".npeviz".toList := by rw [hz, hc]; simp
        exact absurd this (by decide)

/-! ## Runs -/

/-- A simulation with a timeline that gives statistics writes the files of its timeline. -/
theorem runSim_on {fp : FP} {ho : HashOrder} {ord : List (Int × List Int) → List (Int × List Int)} {api : Api}
    {tc : TimelineConfig} {congestion : Bool} {wl : Workload} {r : Report} {files : List (List Char × Json)}
    (ht : tc.emit = true) (h : api.runSimFiles fp ho ord tc congestion wl = .ok (.inl r, files)) :
    ∃ s st, Stats.report api.dev wl st = .ok r ∧
      runSingle fp api.dev ho api.cfg.cyclesPerTimestep congestion wl = .ok (.inl (s, st)) ∧
      emitFiles fp api.cfg api.dev ord tc wl s.ts r = .ok files := by
  unfold Api.runSimFiles at h
  rw [bind_eq_ok] at h
  obtain ⟨x, hx, h⟩ := h
  match x, hx, h with
  | .inl (s, st), hx, h =>
    rw [bind_eq_ok] at h
    obtain ⟨rep, hrep, h⟩ := h
    rw [if_pos ht, bind_eq_ok] at h
    obtain ⟨f, hf, h⟩ := h
    have e := Out.ok.inj h
    have e1 : rep = r := Sum.inl.inj (congrArg Prod.fst e)
    have e2 : f = files := congrArg Prod.snd e
    subst e1 e2
    exact ⟨s, st, hrep, hx, hf⟩
  | .inr e, _, h => exact absurd (congrArg Prod.fst (Out.ok.inj h)) nofun

/-- The same for an estimate. -/
theorem runNPE_on {fp : FP} {ho : HashOrder} {ord : List (Int × List Int) → List (Int × List Int)} {api : Api}
    {tc : TimelineConfig} {wl : Workload} {r : Report} {files : List (List Char × Json)}
    (ht : tc.emit = true) (h : api.runNPEFiles fp ho ord tc wl = .ok (.inl r, files)) :
    ∃ wl' s st rep, api.preprocess fp wl = .ok wl' ∧ Stats.report api.dev wl' st = .ok rep ∧
      runSingle fp api.dev ho api.cfg.cyclesPerTimestep (decide (api.cfg.congestionModel ≠ "none")) wl' =
        .ok (.inl (s, st)) ∧
      emitFiles fp api.cfg api.dev ord tc wl' s.ts rep = .ok files := by
  unfold Api.runNPEFiles at h
  rw [bind_eq_ok] at h
  obtain ⟨wl', hwl, h⟩ := h
  rw [bind_eq_ok] at h
  obtain ⟨v, _, h⟩ := h
  cases v with
  | false => exact absurd (congrArg Prod.fst (Out.ok.inj h)) nofun
  | true =>
    simp only [if_true] at h
    cases hp : api.runPerfFiles fp ho ord tc wl' with
    | exc e =>
      rw [hp] at h
      exact absurd (congrArg Prod.fst (Out.ok.inj h)) nofun
    | ok x =>
      rw [hp] at h
      have e := Out.ok.inj h
      subst e
      unfold Api.runPerfFiles at hp
      simp only at hp
      rw [bind_eq_ok] at hp
      obtain ⟨⟨x1, x2⟩, hx, hp⟩ := hp
      suffices hh : ∃ rep, x1 = .inl rep ∧ files = x2 by
        obtain ⟨rep, rfl, rfl⟩ := hh
        obtain ⟨s, st, h1, h2, h3⟩ := runSim_on ht hx
        exact ⟨wl', s, st, rep, hwl, h1, h2, h3⟩
      cases x1 with
      | inr e =>
        split at hp <;> exact absurd (congrArg Prod.fst (Out.ok.inj hp)) nofun
      | inl rep =>
        refine ⟨rep, rfl, ?_⟩
        split at hp
        · simp only at hp
          rw [bind_eq_ok] at hp
          obtain ⟨y, _, hp⟩ := hp
          split at hp <;> exact (congrArg Prod.snd (Out.ok.inj hp)).symm
        · exact (congrArg Prod.snd (Out.ok.inj hp)).symm
    | _ => rw [hp] at h; exact absurd h nofun

end NPE.Analyze
