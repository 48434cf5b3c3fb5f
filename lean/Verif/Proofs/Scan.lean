import Verif.Model.Engine
import Mathlib.Data.List.Nodup
import Mathlib.Data.List.Perm.Basic

/-
The activation scan: it moves exactly the queue entries that are due and whose dependency is
done to the live list.
-/

namespace NPE

namespace Out

theorem foldlM_ind {α σ : Type} {f : σ → α → Out σ} {P : List α → σ → Prop}
    (step : ∀ a l s s', P (a :: l) s → f s a = ok s' → P l s') :
    ∀ (l : List α) (s s' : σ), P l s → foldlM f s l = ok s' → P [] s' := by
  intro l
  induction l with
  | nil => intro s s' hp h; simp only [foldlM_nil, ok.injEq] at h; exact h ▸ hp
  | cons a l ih =>
    intro s s' hp h
    rw [foldlM_cons] at h
    obtain ⟨s1, h1, h2⟩ := bind_eq_ok.mp h
    exact ih s1 s' (step a l s s1 hp h1) h2

theorem foldlM_append {α σ : Type} {f : σ → α → Out σ} (l1 l2 : List α) (s : σ) :
    foldlM f s (l1 ++ l2) = (foldlM f s l1 >>= fun s' => foldlM f s' l2) := by
  induction l1 generalizing s with
  | nil => rfl
  | cons a l ih =>
    simp only [List.cons_append, foldlM_cons]
    cases f s a <;> simp [ih]

theorem mapM_eq_ok {α β : Type} {f : α → Out β} {l : List α} {r : List β} :
    mapM f l = ok r ↔ List.Forall₂ (fun a b => f a = ok b) l r := by
  induction l generalizing r with
  | nil => cases r <;> simp
  | cons a l ih =>
    rw [mapM_cons]
    constructor
    · intro h
      obtain ⟨b, hb, h⟩ := bind_eq_ok.mp h
      obtain ⟨bs, hbs, h⟩ := bind_eq_ok.mp h
      rw [← ok.inj h]
      exact .cons hb (ih.mp hbs)
    · intro h
      cases h with
      | cons hb hbs => rw [hb, bind_ok, ih.mpr hbs, bind_ok]

end Out

theorem Tracker.done_eq_ok {tk : Tracker} {id : Int} {curr : Nat} {d : Bool} :
    tk.done id curr = .ok d ↔
      (id = -1 ∧ d = true) ∨ (id ≠ -1 ∧ ∃ cp, tk.get id = .ok cp ∧ cp.done curr = d) := by
  unfold Tracker.done Tracker.defined Tracker.UNDEFINED
  by_cases h : id = -1
  · simp [h, eq_comm]
  · simp [h, Out.bind_eq_ok]

theorem Tracker.get_eq_ok {tk : Tracker} {id : Int} {cp : Checkpoint} :
    tk.get id = .ok cp ↔ 0 ≤ id ∧ tk[id.toNat]? = some cp := by
  unfold Tracker.get
  by_cases h : id < 0
  · simp [h]
  · rw [if_neg h]
    cases hc : tk[id.toNat]? <;> simp <;> omega

/-- Apply `f` at every index of `ids`. -/
def updIds {α : Type} (f : α → α) (ids : List Nat) (l : List α) : List α :=
  ids.foldl (fun l i => l.modify i f) l

@[simp] theorem updIds_nil {α : Type} (f : α → α) (l : List α) : updIds f [] l = l := rfl
@[simp] theorem updIds_cons {α : Type} (f : α → α) (i : Nat) (ids : List Nat) (l : List α) :
    updIds f (i :: ids) l = updIds f ids (l.modify i f) := rfl

@[simp] theorem updIds_length {α : Type} (f : α → α) (ids : List Nat) (l : List α) :
    (updIds f ids l).length = l.length := by
  induction ids generalizing l with
  | nil => rfl
  | cons i ids ih => simp [ih]

theorem updIds_getElem? {α : Type} (f : α → α) (ids : List Nat) (l : List α)
    (hn : ids.Nodup) (j : Nat) :
    (updIds f ids l)[j]? = if j ∈ ids then l[j]?.map f else l[j]? := by
  induction ids generalizing l with
  | nil => simp
  | cons i ids ih =>
    rw [List.nodup_cons] at hn
    rw [updIds_cons, ih _ hn.2, List.getElem?_modify]
    by_cases hji : i = j
    · subst hji
      simp [hn.1]
    · have : j ≠ i := fun h => hji h.symm
      simp [hji, this]

/-- The start cycle of a transfer that is activated now. -/
def actStart (deps : Tracker) (t : TState) : Nat :=
  match deps.get t.dependsOn with
  | .ok cp => max t.start ((cp.endc + cp.delay) % 4294967296)
  | _ => t.start

/-- The state of a transfer that is activated now. -/
def actT (deps : Tracker) (t : TState) : TState := { t with start := actStart deps t }

/-- A queue entry whose dependency is done. -/
def isReady (ts : List TState) (deps : Tracker) (curr : Nat) (x : Nat × Nat) : Bool :=
  match ts[x.2]? with
  | some t => match deps.done t.dependsOn curr with
    | .ok d => d
    | _ => false
  | none => false

theorem list_modify_eq_set {α : Type} (l : List α) (i : Nat) (a : α) (f : α → α)
    (h : l[i]? = some a) : l.modify i f = l.set i (f a) := by
  apply List.ext_getElem?
  intro j
  rw [List.getElem?_modify, List.getElem?_set]
  by_cases hij : i = j
  · subst hij
    obtain ⟨hlt, he⟩ := List.getElem?_eq_some_iff.mp h
    simp [hlt, he]
  · simp [hij]

theorem isReady_congr {ts ts' : List TState} {deps : Tracker} {curr : Nat} {x : Nat × Nat}
    (h : (ts'[x.2]?).map (·.dependsOn) = (ts[x.2]?).map (·.dependsOn)) :
    isReady ts' deps curr x = isReady ts deps curr x := by
  unfold isReady
  cases h1 : ts'[x.2]? <;> cases h2 : ts[x.2]? <;> rw [h1, h2] at h <;> simp_all

/-- Positions after a swap of the last rejected entry with the entry under examination. -/
theorem swap_scan {α : Type} (L M A : List α) (x : α) (q' : List α)
    (h : swap (L ++ [x] ++ M ++ A) ((L ++ [x] ++ M ++ A).length - 1 - A.length) L.length
      = .ok q') :
    ∃ M', M'.Perm M ∧ q' = L ++ M' ++ (x :: A) := by
  have hlen : (L ++ [x] ++ M ++ A).length - 1 - A.length = L.length + M.length := by
    simp; omega
  rw [hlen] at h
  have hx : (L ++ [x] ++ M ++ A)[L.length]? = some x := by
    simp [List.append_assoc]
  rcases List.eq_nil_or_concat M with hM | ⟨M0, m, hM⟩
  · subst hM
    simp only [List.length_nil, Nat.add_zero] at h
    unfold swap at h
    rw [hx] at h
    simp only [Out.ok.injEq] at h
    refine ⟨[], List.Perm.refl _, ?_⟩
    rw [← h]
    apply List.ext_getElem?
    intro j
    simp only [List.getElem?_set, List.append_nil, List.append_assoc, List.length_set]
    by_cases hj : L.length = j
    · subst hj; simp
    · simp [hj]
  · subst hM
    have hm : (L ++ [x] ++ (M0.concat m) ++ A)[L.length + (M0.concat m).length]? = some m := by
      rw [List.append_assoc, List.append_assoc, List.getElem?_append_right (by omega)]
      simp
    unfold swap at h
    rw [hx, hm] at h
    simp only [Out.ok.injEq] at h
    refine ⟨m :: M0, ?_, ?_⟩
    · simpa using (List.perm_append_singleton m M0).symm
    · rw [← h]
      apply List.ext_getElem?
      intro j
      have e1 : L ++ [x] ++ M0.concat m ++ A = L ++ (x :: (M0 ++ (m :: A))) := by simp
      have e2 : L ++ (m :: M0) ++ (x :: A) = L ++ (m :: (M0 ++ (x :: A))) := by simp
      rw [e1, e2]
      have hlc : (M0.concat m).length = M0.length + 1 := by simp
      rw [hlc]
      rcases lt_trichotomy j L.length with hj | hj | hj
      · rw [List.getElem?_set_ne (by omega), List.getElem?_set_ne (by omega),
          List.getElem?_append_left hj, List.getElem?_append_left hj]
      · subst hj
        rw [List.getElem?_set_self (by simp), List.getElem?_append_right le_rfl]
        simp
      · obtain ⟨k, rfl⟩ : ∃ k, j = L.length + 1 + k := ⟨j - L.length - 1, by omega⟩
        rw [List.getElem?_set_ne (by omega)]
        have r1 : (L ++ (m :: (M0 ++ (x :: A))))[L.length + 1 + k]? = (M0 ++ (x :: A))[k]? := by
          rw [List.getElem?_append_right (by omega),
            show L.length + 1 + k - L.length = k + 1 by omega, List.getElem?_cons_succ]
        have r2 : (L ++ (x :: (M0 ++ (m :: A))))[L.length + 1 + k]? = (M0 ++ (m :: A))[k]? := by
          rw [List.getElem?_append_right (by omega),
            show L.length + 1 + k - L.length = k + 1 by omega, List.getElem?_cons_succ]
        rw [r1]
        by_cases hk : k = M0.length
        · subst hk
          rw [show L.length + 1 + M0.length = L.length + (M0.length + 1) by omega,
            List.getElem?_set_self (by simp)]
          simp
        · rw [List.getElem?_set_ne (by omega), r2]
          rcases lt_or_ge k M0.length with hlt | hge
          · rw [List.getElem?_append_left hlt, List.getElem?_append_left hlt]
          · rw [List.getElem?_append_right hge, List.getElem?_append_right hge]
            obtain ⟨w, hw⟩ : ∃ w, k - M0.length = w + 1 := ⟨k - M0.length - 1, by omega⟩
            rw [hw]; simp

/-- What the scan does, with the queue split into an unexamined part, the rejected entries and
the accepted ones. -/
theorem scanGo_spec (deps : Tracker) (curr : Nat) :
    ∀ (L M A : List (Nat × Nat)) (ts : List TState) (live : List Nat) (r : Scan),
      (L.map (·.2)).Nodup →
      scanGo deps curr L.length
        { ts := ts, queue := L ++ M ++ A, live := live, activated := A.length } = .ok r →
      ∃ L1 L2 M' acts, L = L1 ++ L2 ∧ r.queue = L1 ++ M' ++ (acts ++ A) ∧
        r.activated = (acts ++ A).length ∧
        (∀ x ∈ L1.getLast?, curr < x.1) ∧
        (∀ x ∈ L2, x.1 ≤ curr) ∧
        (∀ x ∈ L2, ∃ t d, ts[x.2]? = some t ∧ deps.done t.dependsOn curr = .ok d) ∧
        acts = L2.filter (isReady ts deps curr) ∧
        M'.Perm (L2.filter (fun x => !isReady ts deps curr x) ++ M) ∧
        r.live = live ++ (acts.map (·.2)).reverse ∧
        r.ts = updIds (actT deps) (acts.map (·.2)).reverse ts := by
  intro L
  induction L using List.reverseRecOn with
  | nil =>
    intro M A ts live r _ h
    simp only [List.length_nil, scanGo, Out.ok.injEq] at h
    subst h
    exact ⟨[], [], M, [], by simp⟩
  | append_singleton L x ih =>
    intro M A ts live r hnd h
    have hndL : (L.map (·.2)).Nodup := by
      rw [List.map_append] at hnd; exact (List.nodup_append.mp hnd).1
    have hxL : x.2 ∉ L.map (·.2) := by
      rw [List.map_append] at hnd
      intro hx
      exact (List.nodup_append.mp hnd).2.2 _ hx _ (by simp) rfl
    rw [List.length_append, List.length_singleton] at h
    have hx : (L ++ [x] ++ M ++ A)[L.length]? = some x := by simp [List.append_assoc]
    rw [scanGo] at h
    simp only [hx] at h
    by_cases hle : x.1 ≤ curr
    · rw [if_pos hle] at h
      cases ht : ts[x.2]? with
      | none => simp [ht] at h
      | some t =>
        simp only [ht] at h
        obtain ⟨d, hd, h⟩ := Out.bind_eq_ok.mp h
        have hrd : isReady ts deps curr x = d := by simp [isReady, ht, hd]
        cases d with
        | false =>
          simp only [Bool.false_eq_true, if_false] at h
          have e : L ++ [x] ++ M ++ A = L ++ (x :: M) ++ A := by simp
          rw [e] at h
          obtain ⟨L1, L2, M', acts, hL, hq, ha, hlast, hdue, hall, hacts, hM, hlive, hts⟩ :=
            ih (x :: M) A ts live r hndL h
          refine ⟨L1, L2 ++ [x], M', acts, by simp [hL], hq, ha, hlast, ?_, ?_, ?_, ?_, hlive, hts⟩
          · intro y hy
            rcases List.mem_append.mp hy with hy | hy
            · exact hdue y hy
            · simp only [List.mem_singleton] at hy; subst hy; exact hle
          · intro y hy
            rcases List.mem_append.mp hy with hy | hy
            · exact hall y hy
            · simp only [List.mem_singleton] at hy; subst hy; exact ⟨t, false, ht, hd⟩
          · simp [List.filter_append, hrd, hacts]
          · rw [List.filter_append]
            simpa [hrd] using hM
        | true =>
          simp only [if_true] at h
          obtain ⟨st, hst, h⟩ := Out.bind_eq_ok.mp h
          obtain ⟨q', hq', h⟩ := Out.bind_eq_ok.mp h
          obtain ⟨Mm, hMm, rfl⟩ := swap_scan L M A x q' hq'
          have hstart : st = actStart deps t := by
            rcases Tracker.done_eq_ok.mp hd with ⟨hneg, _⟩ | ⟨hne, cp, hcp, _⟩
            · simp only [startAfterDep, hneg, Tracker.defined, Tracker.UNDEFINED, ne_eq, not_true, decide_false,
                Bool.false_eq_true, if_false, Out.ok.injEq] at hst
              simp [actStart, hneg, Tracker.get, ← hst]
            · simp only [startAfterDep, Tracker.defined, Tracker.UNDEFINED, ne_eq, hne, not_false_eq_true,
                decide_true, if_true, Tracker.endCyclePlusDelay, hcp, Out.bind_ok,
                Out.ok.injEq] at hst
              simp [actStart, hcp, ← hst]
          have htsx : ts.set x.2 { t with start := st } = ts.modify x.2 (actT deps) := by
            rw [list_modify_eq_set ts x.2 t _ ht, hstart]; rfl
          rw [htsx] at h
          have hcong : ∀ y ∈ L,
              isReady (ts.modify x.2 (actT deps)) deps curr y = isReady ts deps curr y := by
            intro y hy
            have hne : x.2 ≠ y.2 := fun hc => hxL (hc ▸ List.mem_map_of_mem hy)
            apply isReady_congr
            rw [List.getElem?_modify]
            simp [hne]
          have hA : (x :: A).length = A.length + 1 := rfl
          rw [← hA] at h
          obtain ⟨L1, L2, M', acts, hL, hq, ha, hlast, hdue, hall, hacts, hM, hlive, hts⟩ :=
            ih Mm (x :: A) _ _ r hndL h
          have hsub : ∀ y ∈ L2, y ∈ L := fun y hy => by rw [hL]; simp [hy]
          refine ⟨L1, L2 ++ [x], M', acts ++ [x], by simp [hL], by simpa using hq, by
            simpa using ha, hlast, ?_, ?_, ?_, ?_, ?_, ?_⟩
          · intro y hy
            rcases List.mem_append.mp hy with hy | hy
            · exact hdue y hy
            · simp only [List.mem_singleton] at hy; subst hy; exact hle
          · intro y hy
            rcases List.mem_append.mp hy with hy | hy
            · obtain ⟨t', d', ht', hd'⟩ := hall y hy
              have hne : x.2 ≠ y.2 := fun hc => hxL (hc ▸ List.mem_map_of_mem (hsub y hy))
              rw [List.getElem?_modify] at ht'
              simp only [hne, if_false, Option.map_eq_map, Option.map_id_fun', id_eq] at ht'
              exact ⟨t', d', ht', hd'⟩
            · simp only [List.mem_singleton] at hy; subst hy; exact ⟨t, true, ht, hd⟩
          · rw [List.filter_append, hacts]
            simp only [List.filter_cons, hrd, if_true, List.filter_nil]
            congr 1
            exact List.filter_congr fun y hy => hcong y (hsub y hy)
          · rw [List.filter_append]
            simp only [List.filter_cons, hrd, Bool.not_true, Bool.false_eq_true, if_false,
              List.filter_nil, List.append_nil]
            have hf : L2.filter (fun y => !isReady ts deps curr y)
                = L2.filter (fun y => !isReady (ts.modify x.2 (actT deps)) deps curr y) :=
              List.filter_congr (fun y hy => by rw [hcong y (hsub y hy)])
            rw [hf]
            exact hM.trans (List.Perm.append_left _ hMm)
          · rw [hlive]; simp
          · rw [hts]; simp
    · rw [if_neg hle] at h
      simp only [Out.ok.injEq] at h
      subst h
      refine ⟨L ++ [x], [], M, [], by simp, by simp, by simp, ?_, by simp, by simp, by simp, by simp,
        by simp, by simp⟩
      intro y hy
      simp at hy
      subst hy; omega

end NPE

namespace NPE

/-- Shape of the queue: a part in descending order of start cycle, then entries that were
already due at cycle `prev`. -/
def QInv (prev : Nat) (q : List (Nat × Nat)) : Prop :=
  ∃ P B, q = P ++ B ∧ P.Pairwise (fun a b => b.1 ≤ a.1) ∧ ∀ x ∈ B, x.1 ≤ prev

/-- A queue entry that has to be activated. -/
def isDue (ts : List TState) (deps : Tracker) (curr : Nat) (x : Nat × Nat) : Bool :=
  decide (x.1 ≤ curr) && isReady ts deps curr x

theorem activate_spec {prev curr : Nat} {s s' : Sim} (hq : QInv prev s.queue)
    (hle : prev ≤ curr) (hnd : (s.queue.map (·.2)).Nodup) (h : activate curr s = .ok s') :
    ∃ acts : List (Nat × Nat), acts.Perm (s.queue.filter (isDue s.ts s.deps curr)) ∧
      s'.queue.Perm (s.queue.filter (fun x => !isDue s.ts s.deps curr x)) ∧
      QInv curr s'.queue ∧
      (∀ x ∈ s.queue, x.1 ≤ curr →
        ∃ t d, s.ts[x.2]? = some t ∧ s.deps.done t.dependsOn curr = .ok d) ∧
      s' = { s with
        queue := s'.queue
        live := s.live ++ acts.map (·.2)
        ts := updIds (actT s.deps) (acts.map (·.2)) s.ts } := by
  obtain ⟨r, hr, h⟩ := Out.bind_eq_ok.mp h
  have e0 : s.queue = s.queue ++ [] ++ [] := by simp
  have hr' : scanGo s.deps curr s.queue.length
      { ts := s.ts, queue := s.queue ++ [] ++ [], live := s.live, activated := ([] : List (Nat × Nat)).length }
      = .ok r := by simpa using hr
  obtain ⟨L1, L2, M', acts, hL, hrq, hra, hlast, hdue, hall, hacts, hM, hlive, hts⟩ :=
    scanGo_spec s.deps curr s.queue [] [] s.ts s.live r hnd hr'
  obtain ⟨P, B, hPB, hsort, hB⟩ := hq
  -- everything that was not examined starts later
  have hL1 : L1.Pairwise (fun a b => b.1 ≤ a.1) ∧ ∀ x ∈ L1, curr < x.1 := by
    rcases List.eq_nil_or_concat L1 with hn | ⟨L0, y, hn⟩
    · subst hn; simp
    · have hy : curr < y.1 := hlast y (by simp [hn])
      have hpre : L1 <+: P ++ B := ⟨L2, by rw [← hL, hPB]⟩
      have hP : L1 <+: P := by
        by_contra hc
        have hlen : P.length < L1.length := by
          by_contra hl
          exact hc (List.prefix_of_prefix_length_le hpre (List.prefix_append P B) (by omega))
        have hPL : P <+: L1 :=
          List.prefix_of_prefix_length_le (List.prefix_append P B) hpre (by omega)
        obtain ⟨C, hC⟩ := hPL
        have hCB : C <+: B := by
          rw [← hC] at hpre
          exact (List.prefix_append_right_inj P).mp hpre
        have hCne : C ≠ [] := by
          intro hc0; rw [hc0] at hC; rw [← hC] at hlen; simp at hlen
        have hyC : y ∈ C := by
          have : C.getLast? = some y := by
            have h1 : L1.getLast? = some y := by simp [hn]
            rw [← hC, List.getLast?_append] at h1
            cases hcl : C.getLast? with
            | none => simp [List.getLast?_eq_none_iff] at hcl; exact absurd hcl hCne
            | some w => rw [hcl] at h1; simpa using h1
          exact List.mem_of_getLast? this
        have := hB y (hCB.subset hyC)
        omega
      have hs1 : L1.Pairwise (fun a b => b.1 ≤ a.1) := hsort.sublist hP.sublist
      refine ⟨hs1, ?_⟩
      intro x hx
      rw [hn] at hs1 hx
      simp only [List.concat_eq_append] at hs1 hx
      rcases List.mem_append.mp hx with hx | hx
      · have := (List.pairwise_append.mp hs1).2.2 x hx y (by simp)
        omega
      · simp only [List.mem_singleton] at hx; subst hx; exact hy
  have hf1 : L1.filter (isDue s.ts s.deps curr) = [] := by
    rw [List.filter_eq_nil_iff]
    intro x hx
    have := hL1.2 x hx
    simp [isDue]; omega
  have hf1' : L1.filter (fun x => !isDue s.ts s.deps curr x) = L1 := by
    rw [List.filter_eq_self]
    intro x hx
    have := hL1.2 x hx
    simp [isDue]; omega
  have hf2 : L2.filter (isDue s.ts s.deps curr) = L2.filter (isReady s.ts s.deps curr) := by
    apply List.filter_congr
    intro x hx
    simp [isDue, hdue x hx]
  have hf2' : L2.filter (fun x => !isDue s.ts s.deps curr x)
      = L2.filter (fun x => !isReady s.ts s.deps curr x) := by
    apply List.filter_congr
    intro x hx
    simp [isDue, hdue x hx]
  simp only [Out.pure_eq, Out.ok.injEq] at h
  have hq' : r.queue.take (r.queue.length - r.activated) = L1 ++ M' := by
    rw [hra, hrq, List.append_nil]
    rw [show (L1 ++ M' ++ acts).length - acts.length = (L1 ++ M').length by
      simp; omega]
    exact List.take_left
  refine ⟨acts.reverse, ?_, ?_, ?_, ?_, ?_⟩
  · rw [hL, List.filter_append, hf1, hf2, List.nil_append, hacts]
    exact List.reverse_perm _
  · rw [← h]
    simp only
    rw [hq', hL, List.filter_append, hf1', hf2']
    exact List.Perm.append_left _ (by simpa using hM)
  · rw [← h]
    simp only
    rw [hq']
    refine ⟨L1, M', rfl, hL1.1, ?_⟩
    intro x hx
    have := hM.subset hx
    rw [List.append_nil] at this
    exact hdue x (List.mem_of_mem_filter this)
  · intro x hx hxc
    rw [hL] at hx
    rcases List.mem_append.mp hx with hx | hx
    · have := hL1.2 x hx; omega
    · exact hall x hx
  · rw [← h, hlive, hts, List.map_reverse]

end NPE
