import Verif.Proofs.GroupOrder
import Verif.Props.OrderFree

/-
Property C147: the order of the table of transfer groups shows only in the order of the listed transfers.
-/

namespace NPE.Props
open NPE NPE.Spec

/-- Documents that are read alike: the same fields in the same order with the same values, where the elements of
`noc_transfers` may come in another order. -/
def ReadAlike (j j' : Json) : Prop :=
  j' = j ∨ ∃ (a b : List (String × Json)) (l l' : List Json), l.Perm l' ∧
    j = .obj (a ++ ("noc_transfers", .arr l) :: b) ∧ j' = .obj (a ++ ("noc_transfers", .arr l') :: b)

theorem runSimFiles_ord {fp : FP} {api : Api} {ho : HashOrder} {ord ord' : List (Int × List Int) → List (Int × List Int)}
    (h : ∀ l, (ord l).Perm l) (h' : ∀ l, (ord' l).Perm l) {tc : TimelineConfig} {en : Bool} {wl : Workload} {r : Result}
    {files : List (List Char × Json)} (hr : api.runSimFiles fp ho ord tc en wl = .ok (r, files)) :
    ∃ files', api.runSimFiles fp ho ord' tc en wl = .ok (r, files') ∧
      List.Forall₂ (fun f f' => f'.1 = f.1 ∧ ReadAlike f.2 f'.2) files files' := by
  unfold Api.runSimFiles at hr ⊢
  obtain ⟨x, h1, hr⟩ := Out.bind_eq_ok.mp hr
  rw [h1, Out.bind_ok]
  rcases x with ⟨s, st⟩ | e
  · simp only at hr ⊢
    obtain ⟨rep, h2, hr⟩ := Out.bind_eq_ok.mp hr
    rw [h2, Out.bind_ok]
    by_cases he : tc.emit = true
    · rw [if_pos he] at hr ⊢
      obtain ⟨fs, h3, hr⟩ := Out.bind_eq_ok.mp hr
      obtain ⟨fs', h4, h5⟩ := emitFiles_ord h h' h3
      rw [h4, Out.bind_ok]
      obtain ⟨e1, e2⟩ := Prod.mk.inj (Out.ok.inj hr)
      rw [← e1, ← e2]
      exact ⟨fs', rfl, h5⟩
    · rw [if_neg he] at hr ⊢
      obtain ⟨e1, e2⟩ := Prod.mk.inj (Out.ok.inj hr)
      rw [← e1, ← e2]
      exact ⟨[], rfl, .nil⟩
  · simp only at hr ⊢
    obtain ⟨e1, e2⟩ := Prod.mk.inj (Out.ok.inj hr)
    rw [← e1, ← e2]
    exact ⟨[], rfl, .nil⟩

/-- C147.  A run that returns statistics does so in any order of the table of transfer groups (and of that of the issue
queues).  It returns the same statistics and writes files with the same names, in the same order, that differ at most in
the order in which the transfers are listed. -/
theorem C147 (fp : FP) (api : Api) (ho ho' : HashOrder) (wl : Workload) (hq : QueueOrders ho ho' wl)
    (ord ord' : List (Int × List Int) → List (Int × List Int)) (h : ∀ l, (ord l).Perm l) (h' : ∀ l, (ord' l).Perm l)
    (tc : TimelineConfig) (rep : Report) (files : List (List Char × Json))
    (hr : api.runNPEFiles fp ho ord tc wl = .ok (.inl rep, files)) :
    ∃ files', api.runNPEFiles fp ho' ord' tc wl = .ok (.inl rep, files') ∧
      List.Forall₂ (fun f f' => f'.1 = f.1 ∧ ReadAlike f.2 f'.2) files files' := by
  rw [← C146_files fp api ho ho' wl hq]
  unfold Api.runNPEFiles at hr ⊢
  obtain ⟨wl1, h1, hr⟩ := Out.bind_eq_ok.mp hr
  obtain ⟨v, h2, hr⟩ := Out.bind_eq_ok.mp hr
  rw [h1, Out.bind_ok, h2, Out.bind_ok]
  cases v with
  | false => simp at hr
  | true =>
    simp only [if_true] at hr ⊢
    have hp : api.runPerfFiles fp ho ord tc wl1 = .ok (.inl rep, files) := by
      cases hx : api.runPerfFiles fp ho ord tc wl1 with
      | exc e => rw [hx] at hr; simp at hr
      | _ => rw [hx] at hr; exact hr
    suffices hs : ∃ files', api.runPerfFiles fp ho ord' tc wl1 = .ok (.inl rep, files') ∧
        List.Forall₂ (fun f f' => f'.1 = f.1 ∧ ReadAlike f.2 f'.2) files files' by
      obtain ⟨files', a, b⟩ := hs
      exact ⟨files', by rw [a], b⟩
    unfold Api.runPerfFiles at hp ⊢
    simp only at hp ⊢
    obtain ⟨⟨r1, f1⟩, h3, hp⟩ := Out.bind_eq_ok.mp hp
    obtain ⟨f1', h4, h5⟩ := runSimFiles_ord h h' h3
    rw [h4, Out.bind_ok]
    by_cases hc : api.cfg.estimateCongImpact = true
    · rw [if_pos hc] at hp ⊢
      rcases r1 with st | e
      · simp only at hp ⊢
        obtain ⟨⟨r2, f2⟩, h6, hp⟩ := Out.bind_eq_ok.mp hp
        obtain ⟨f2', h7, _⟩ := runSimFiles_ord h h' h6
        rw [h7, Out.bind_ok]
        rcases r2 with st2 | e2
        · simp only at hp ⊢
          obtain ⟨e1, e2⟩ := Prod.mk.inj (Out.ok.inj hp)
          rw [e1, ← e2]
          exact ⟨f1', rfl, h5⟩
        · simp only at hp ⊢
          obtain ⟨e1, e2⟩ := Prod.mk.inj (Out.ok.inj hp)
          rw [e1, ← e2]
          exact ⟨f1', rfl, h5⟩
      · simp at hp
    · rw [if_neg hc] at hp ⊢
      obtain ⟨e1, e2⟩ := Prod.mk.inj (Out.ok.inj hp)
      rw [e1, ← e2]
      exact ⟨f1', rfl, h5⟩

/-- The identifiers in the order in which a timeline lists them, after a run of two transfers. -/
def listedIds (ord : List (Int × List Int) → List (Int × List Int)) : Out (List Int) :=
  let wl := (Workload.addPhase {} { transfers := [east, south] }).setGoldenResultCycles
    [(0, (0, 1000)), (MESH_DEVICE, (0, 1000))]
  runSingle .exact Sample.dev ⟨id, id⟩ 128 true wl >>= fun r =>
    match r with
    | .inl (s, _) => serializeV1 .exact Sample.dev ord wl s.ts [] none >>= fun tl => .ok (tl.transfers.map (·.id))
    | .inr _ => .ub

/-- The order of the list does depend on the table, so the files need not be equal. -/
theorem C147_order : listedIds id = .ok [0, 1] ∧ listedIds List.reverse = .ok [1, 0] := by decide +kernel

/-- Documents that are not read alike: the transfer is another one. -/
example : ¬ ReadAlike (.obj [("noc_transfers", .arr [.int 1])]) (.obj [("noc_transfers", .arr [.int 2])]) := by
  rintro (h | ⟨a, b, l, l', hp, h1, h2⟩)
  · simp at h
  · cases a with
    | nil =>
      simp only [List.nil_append, Json.obj.injEq, List.cons.injEq, Prod.mk.injEq, Json.arr.injEq, true_and] at h1 h2
      rw [← h1.1, ← h2.1] at hp
      have := hp.mem_iff (a := Json.int 1)
      simp at this
    | cons x a => simp at h1

end NPE.Props
