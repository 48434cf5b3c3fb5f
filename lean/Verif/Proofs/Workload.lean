import Verif.Model.Workload

/- Helper lemmas about workloads. -/

namespace NPE
namespace Workload

theorem assignIds_length (p : Int) (n : Nat) (ts : List Transfer) :
    (assignIds p n ts).length = ts.length := by
  induction ts generalizing n with
  | nil => rfl
  | cons t ts ih => simp [assignIds, ih]

theorem assignIds_ids (p : Int) (n : Nat) (ts : List Transfer) :
    (assignIds p n ts).map (·.id) = (List.range' n ts.length).map (fun (k : Nat) => (k : Int)) := by
  induction ts generalizing n with
  | nil => rfl
  | cons t ts ih => simp [assignIds, ih, List.range'_succ]

theorem assignIds_phase (p : Int) (n : Nat) (ts : List Transfer) :
    ∀ t ∈ assignIds p n ts, t.phaseId = p := by
  induction ts generalizing n with
  | nil => simp [assignIds]
  | cons t ts ih => simpa [assignIds] using ih (n + 1)

/-- Any function of a transfer that ignores the ids is unchanged by `assignIds`. -/
theorem assignIds_map {β : Type} (f : Transfer → β)
    (hf : ∀ t p i, f { t with phaseId := p, id := i } = f t) (p : Int) (n : Nat)
    (ts : List Transfer) : (assignIds p n ts).map f = ts.map f := by
  induction ts generalizing n with
  | nil => rfl
  | cons t ts ih => simp [assignIds, ih, hf]

theorem addPhase_phases_length (wl : Workload) (ph : Phase) :
    (wl.addPhase ph).phases.length = wl.phases.length + 1 := by simp [addPhase]

/-- Everything `addPhase` keeps true when iterated from a workload satisfying it. -/
structure Dense (wl : Workload) : Prop where
  phaseIds : wl.phases.map (·.id) = (List.range wl.phases.length).map (fun (k : Nat) => (k : Int))
  ids : wl.transfers.map (·.id) = (List.range wl.gblTransferId).map (fun (k : Nat) => (k : Int))
  gbl : wl.gblTransferId = wl.transfers.length
  phase : ∀ ph ∈ wl.phases, ∀ t ∈ ph.transfers, t.phaseId = ph.id

theorem transfers_addPhase (wl : Workload) (ph : Phase) :
    (wl.addPhase ph).transfers =
      wl.transfers ++ assignIds wl.phases.length wl.gblTransferId ph.transfers := by
  simp [addPhase, transfers]

theorem Dense.addPhase {wl : Workload} (h : Dense wl) (ph : Phase) : Dense (wl.addPhase ph) where
  phaseIds := by
    have := h.phaseIds
    simp [Workload.addPhase, List.range_succ, this]
  ids := by
    rw [transfers_addPhase, List.map_append, h.ids, assignIds_ids]
    have : (wl.addPhase ph).gblTransferId = wl.gblTransferId + ph.transfers.length := rfl
    rw [this, ← List.map_append]
    congr 1
    rw [List.range_eq_range', List.range_eq_range']
    have := List.range'_append_1 (s := 0) (m := wl.gblTransferId) (n := ph.transfers.length)
    simpa using this
  gbl := by
    rw [transfers_addPhase, List.length_append, assignIds_length, ← h.gbl]
    rfl
  phase := by
    intro p hp t ht
    simp only [Workload.addPhase, List.mem_append, List.mem_singleton] at hp
    rcases hp with hp | rfl
    · exact h.phase p hp t ht
    · exact assignIds_phase _ _ _ t ht

theorem Dense.empty : Dense {} := ⟨rfl, rfl, rfl, by simp⟩

theorem Dense.foldl (phs : List Phase) : ∀ wl, Dense wl → Dense (phs.foldl Workload.addPhase wl) := by
  induction phs with
  | nil => intro wl h; exact h
  | cons p ps ih => intro wl h; exact ih _ (h.addPhase p)

theorem foldl_addPhase_phases_length (phs : List Phase) : ∀ wl : Workload,
    (phs.foldl Workload.addPhase wl).phases.length = wl.phases.length + phs.length := by
  induction phs with
  | nil => intro wl; simp
  | cons p ps ih => intro wl; simp [ih, addPhase_phases_length]; omega

/-- Any id-independent view of the phases is what the caller passed. -/
theorem foldl_addPhase_map {β : Type} (f : Transfer → β)
    (hf : ∀ t p i, f { t with phaseId := p, id := i } = f t) (phs : List Phase) :
    ∀ wl : Workload, (phs.foldl Workload.addPhase wl).phases.map (fun p => p.transfers.map f) =
      wl.phases.map (fun p => p.transfers.map f) ++ phs.map (fun p => p.transfers.map f) := by
  induction phs with
  | nil => intro wl; simp
  | cons p ps ih =>
    intro wl
    simp only [List.foldl_cons, ih, List.map_cons]
    simp [addPhase, assignIds_map f hf]

theorem foldl_addPhase_other (phs : List Phase) : ∀ wl : Workload,
    (phs.foldl Workload.addPhase wl).golden = wl.golden ∧
    (phs.foldl Workload.addPhase wl).zones = wl.zones ∧
    (phs.foldl Workload.addPhase wl).sourcePath = wl.sourcePath ∧
    (phs.foldl Workload.addPhase wl).numTransferGroups = wl.numTransferGroups := by
  induction phs with
  | nil => intro wl; simp
  | cons p ps ih => intro wl; exact ih (wl.addPhase p)

/-! ### validation -/

theorem validate_set_ids (dev : Device) (t : Transfer) (p i : Int) :
    ({ t with phaseId := p, id := i } : Transfer).validate dev = t.validate dev := rfl

/-- Count of transfers that do not validate to `true`. -/
def invalidCount (dev : Device) (ts : List Transfer) : Nat :=
  ts.countP (fun t => t.validate dev ≠ .ok true)

theorem bits_get {n N : Nat} (h : n < N) :
    (List.replicate n true ++ List.replicate (N - n) false)[n]? = some false := by
  rw [List.getElem?_append_right (by simp)]
  simp [List.getElem?_replicate]; omega

theorem bits_set {n N : Nat} (h : n < N) :
    (List.replicate n true ++ List.replicate (N - n) false).set n true =
      List.replicate (n + 1) true ++ List.replicate (N - (n + 1)) false := by
  rw [List.set_append_right _ _ (by simp)]
  obtain ⟨m, hm⟩ : ∃ m, N - n = m + 1 := ⟨N - n - 1, by omega⟩
  have hm' : N - (n + 1) = m := by omega
  rw [hm, hm', List.replicate_succ' (n := n)]
  simp [List.replicate_succ]

theorem foldlM_validateTransfer (dev : Device) (p : Int) (N : Nat) (pb : List Bool) :
    ∀ (ts : List Transfer) (n e : Nat), n + ts.length ≤ N →
      (∀ t ∈ ts, ∃ b, t.validate dev = .ok b) →
      Out.foldlM (validateTransfer dev N)
        ⟨pb, List.replicate n true ++ List.replicate (N - n) false, e⟩ (assignIds p n ts) =
      .ok ⟨pb, List.replicate (n + ts.length) true ++ List.replicate (N - (n + ts.length)) false,
        e + invalidCount dev ts⟩ := by
  intro ts
  induction ts with
  | nil => intro n e _ _; simp [assignIds, invalidCount]
  | cons t ts ih =>
    intro n e hn hv
    obtain ⟨b, hb⟩ := hv t (by simp)
    simp only [List.length_cons] at hn
    have hlt : n < N := by omega
    have hget := bits_get hlt
    have hset := bits_set hlt
    have hstep : validateTransfer dev N
        ⟨pb, List.replicate n true ++ List.replicate (N - n) false, e⟩
        { t with phaseId := p, id := n } =
        .ok ⟨pb, List.replicate (n + 1) true ++ List.replicate (N - (n + 1)) false,
          if b then e else e + 1⟩ := by
      unfold validateTransfer
      have h1 : ¬ ((n : Int) > N) := by omega
      have h2 : ¬ ((n : Int) < 0) := by omega
      simp only [h1, h2, if_false, Int.toNat_natCast, hget, validate_set_ids, hb, Out.bind_ok, hset]
    simp only [assignIds, Out.foldlM_cons, hstep, Out.bind_ok]
    rw [ih (n + 1) _ (by omega) (fun t' ht' => hv t' (by simp [ht']))]
    have : n + 1 + ts.length = n + (ts.length + 1) := by omega
    simp only [List.length_cons, this]
    congr 2
    cases b <;> simp [invalidCount, hb] <;> omega

theorem foldlM_validatePhase (dev : Device) (P N : Nat) :
    ∀ (phs : List Phase) (wl : Workload) (e : Nat),
      (∀ ph ∈ phs, ∀ t ∈ ph.transfers, ∃ b, t.validate dev = .ok b) →
      (phs.foldl addPhase wl).phases.length ≤ P →
      (phs.foldl addPhase wl).gblTransferId ≤ N →
      Out.foldlM (validatePhase dev P N)
        ⟨List.replicate wl.phases.length true ++ List.replicate (P - wl.phases.length) false,
         List.replicate wl.gblTransferId true ++ List.replicate (N - wl.gblTransferId) false, e⟩
        ((phs.foldl addPhase wl).phases.drop wl.phases.length) =
      .ok ⟨List.replicate (phs.foldl addPhase wl).phases.length true ++
            List.replicate (P - (phs.foldl addPhase wl).phases.length) false,
         List.replicate (phs.foldl addPhase wl).gblTransferId true ++
            List.replicate (N - (phs.foldl addPhase wl).gblTransferId) false,
         e + invalidCount dev (phs.flatMap (·.transfers))⟩ := by
  intro phs
  induction phs with
  | nil => intro wl e _ _ _; simp [invalidCount]
  | cons p ps ih =>
    intro wl e hv hP hN
    simp only [List.foldl_cons] at hP hN ⊢
    -- the phase list of the result starts with that of `wl.addPhase p`
    have hpre : ∀ (ps : List Phase) (w : Workload),
        ∃ tl, (ps.foldl addPhase w).phases = w.phases ++ tl := by
      intro ps
      induction ps with
      | nil => intro w; exact ⟨[], by simp⟩
      | cons q qs ihq =>
        intro w
        obtain ⟨tl, h⟩ := ihq (w.addPhase q)
        refine ⟨[{ transfers := assignIds w.phases.length w.gblTransferId q.transfers,
                   id := w.phases.length }] ++ tl, ?_⟩
        rw [List.foldl_cons, h, addPhase, List.append_assoc]
    obtain ⟨tl, htl⟩ := hpre ps (wl.addPhase p)
    have hlen := foldl_addPhase_phases_length ps (wl.addPhase p)
    have hgbl : ∀ (ps : List Phase) (w : Workload),
        w.gblTransferId ≤ (ps.foldl addPhase w).gblTransferId := by
      intro ps
      induction ps with
      | nil => intro w; simp
      | cons q qs ihq => intro w; refine le_trans ?_ (ihq (w.addPhase q)); simp [addPhase]
    have hg := hgbl ps (wl.addPhase p)
    have hdrop : (ps.foldl addPhase (wl.addPhase p)).phases.drop wl.phases.length =
        { transfers := assignIds wl.phases.length wl.gblTransferId p.transfers,
          id := wl.phases.length } ::
        (ps.foldl addPhase (wl.addPhase p)).phases.drop (wl.addPhase p).phases.length := by
      rw [htl]; simp [addPhase]
    rw [addPhase_phases_length] at hlen
    have hgp : (wl.addPhase p).gblTransferId = wl.gblTransferId + p.transfers.length := rfl
    have hlt : wl.phases.length < P := by omega
    have hget := bits_get hlt
    have hset := bits_set hlt
    rw [hdrop, Out.foldlM_cons]
    have hstep : validatePhase dev P N
        ⟨List.replicate wl.phases.length true ++ List.replicate (P - wl.phases.length) false,
         List.replicate wl.gblTransferId true ++ List.replicate (N - wl.gblTransferId) false, e⟩
        { transfers := assignIds wl.phases.length wl.gblTransferId p.transfers,
          id := wl.phases.length } =
        .ok ⟨List.replicate (wl.addPhase p).phases.length true ++
              List.replicate (P - (wl.addPhase p).phases.length) false,
          List.replicate (wl.addPhase p).gblTransferId true ++
              List.replicate (N - (wl.addPhase p).gblTransferId) false,
          e + invalidCount dev p.transfers⟩ := by
      unfold validatePhase
      have h1 : ¬ ((wl.phases.length : Int) < 0 ∨ (wl.phases.length : Int) > P) := by omega
      simp only [h1, if_false, Int.toNat_natCast, hget, hset]
      rw [foldlM_validateTransfer dev _ N _ p.transfers wl.gblTransferId e (by omega)
        (hv p (by simp))]
      simp [addPhase]
    rw [hstep, Out.bind_ok, ih (wl.addPhase p) _ (fun ph hph => hv ph (by simp [hph])) hP hN]
    simp [invalidCount, List.countP_append, Nat.add_assoc]

/-- Validation of a built workload in closed form. -/
theorem validate_build (dev : Device) (phs : List Phase)
    (hv : ∀ ph ∈ phs, ∀ t ∈ ph.transfers, ∃ b, t.validate dev = .ok b) :
    (build phs).validate dev =
      .ok (decide (invalidCount dev (phs.flatMap (·.transfers)) = 0)) := by
  have := foldlM_validatePhase dev (build phs).phases.length (build phs).gblTransferId phs {} 0 hv
    (le_refl _) (le_refl _)
  simp only [List.length_nil, List.replicate_zero, List.nil_append, Nat.sub_zero,
    List.drop_zero] at this
  unfold validate
  unfold build at this ⊢
  rw [this]
  simp

theorem invalidCount_eq_zero (dev : Device) (ts : List Transfer) :
    invalidCount dev ts = 0 ↔ ∀ t ∈ ts, t.validate dev = .ok true := by
  simp [invalidCount, List.countP_eq_zero]

end Workload
end NPE
