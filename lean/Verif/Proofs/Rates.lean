import Verif.Proofs.Member

/-
The rate computation only writes bandwidths.
-/

namespace NPE

/-- Everything but the bandwidth. -/
def noBw (t : TState) : TState := { t with bw := 0 }

theorem noBw_eq {t t' : TState} (h : noBw t' = noBw t) : t' = { t with bw := t'.bw } := by
  obtain ⟨a1, a2, a3, a4, a5, a6, a7, a8⟩ := t
  obtain ⟨b1, b2, b3, b4, b5, b6, b7, b8⟩ := t'
  simp only [noBw, TState.mk.injEq] at h
  simp [h]

theorem map_noBw_set {ts : List TState} {id : Nat} {t : TState} {b : ℚ} (h : ts[id]? = some t) :
    (ts.set id { t with bw := b }).map noBw = ts.map noBw := by
  rw [List.map_set]
  have h1 : (ts.map noBw)[id]? = some (noBw t) := by simp [h]
  have e : noBw { t with bw := b } = noBw t := rfl
  rw [e]
  obtain ⟨hl, hg⟩ := List.getElem?_eq_some_iff.mp h1
  rw [← hg, List.set_getElem_self]

theorem foldlM_noBw {f : List TState → Nat → Out (List TState)}
    (hf : ∀ ts id ts', f ts id = .ok ts' → ts'.map noBw = ts.map noBw) :
    ∀ (l : List Nat) (ts ts' : List TState), Out.foldlM f ts l = .ok ts' →
      ts'.map noBw = ts.map noBw := by
  intro l
  induction l with
  | nil => intro ts ts' h; rw [← Out.ok.inj h]
  | cons i l ih =>
    intro ts ts' h
    rw [Out.foldlM_cons] at h
    obtain ⟨ts1, h1, h⟩ := Out.bind_eq_ok.mp h
    rw [ih ts1 ts' h, hf _ _ _ h1]

theorem updateBwOne_noBw {fp : FP} {dev : Device} (ts : List TState) (id : Nat) (ts' : List TState)
    (h : updateBwOne fp dev ts id = .ok ts') : ts'.map noBw = ts.map noBw := by
  unfold updateBwOne at h
  cases ht : ts[id]? with
  | none => simp [ht] at h
  | some t =>
    simp only [ht] at h
    obtain ⟨b, _, h⟩ := Out.bind_eq_ok.mp h
    rw [← Out.ok.inj h]
    exact map_noBw_set ht

theorem derateOne_noBw {fp : FP} {dev : Device} {g : Grids} (ts : List TState) (id : Nat)
    (ts' : List TState) (h : derateOne fp dev g ts id = .ok ts') : ts'.map noBw = ts.map noBw := by
  unfold derateOne at h
  cases ht : ts[id]? with
  | none => simp [ht] at h
  | some t =>
    simp only [ht] at h
    obtain ⟨b, _, h⟩ := Out.bind_eq_ok.mp h
    rw [← Out.ok.inj h]
    exact map_noBw_set ht

theorem computeRates_noBw {fp : FP} {dev : Device} {en : Bool} {sot curr : Nat} {g g' : Grids}
    {ts ts' : List TState} {live : List Nat}
    (h : computeRates fp dev en sot curr g ts live = .ok (ts', g')) :
    ts'.map noBw = ts.map noBw := by
  unfold computeRates at h
  obtain ⟨ts1, h1, h⟩ := Out.bind_eq_ok.mp h
  have e1 := foldlM_noBw updateBwOne_noBw _ _ _ h1
  cases en with
  | false =>
    simp only [Bool.false_eq_true, if_false, Out.ok.injEq, Prod.mk.injEq] at h
    rw [← h.1, e1]
  | true =>
    simp only [if_true] at h
    unfold modelCongestion at h
    obtain ⟨g1, _, h⟩ := Out.bind_eq_ok.mp h
    obtain ⟨ts2, h2, h⟩ := Out.bind_eq_ok.mp h
    simp only [Out.pure_eq, Out.ok.injEq, Prod.mk.injEq] at h
    rw [← h.1, foldlM_noBw derateOne_noBw _ _ _ h2, e1]

/-- The rate computation of every device model only writes bandwidths. -/
theorem computeRates_ok (fp : FP) (dev : Device) (en : Bool) : RatesOk (computeRates fp dev en) := by
  intro sot curr g ts live ts' g' h
  have h1 := computeRates_noBw h
  refine ⟨by have := congrArg List.length h1; simpa using this, ?_⟩
  intro i t t' ht ht'
  have h2 : (ts'.map noBw)[i]? = some (noBw t') := by simp [ht']
  rw [h1] at h2
  simp only [List.getElem?_map, ht, Option.map_some, Option.some.injEq] at h2
  exact noBw_eq h2.symm

end NPE
