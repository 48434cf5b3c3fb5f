import Verif.Model.Document
import Verif.Proofs.Init

/-
The order of the table of transfer groups in timelines.
-/

namespace NPE

theorem mapM_forall2 {α β γ : Type} {R : β → γ → Prop} {f : α → Out β} {g : α → Out γ} {l : List α}
    (h : ∀ x ∈ l, ∀ b, f x = .ok b → ∃ c, g x = .ok c ∧ R b c) : ∀ {bs : List β}, Out.mapM f l = .ok bs →
      ∃ cs, Out.mapM g l = .ok cs ∧ List.Forall₂ R bs cs := by
  induction l with
  | nil => intro bs hb; exact ⟨[], rfl, by rw [← Out.ok.inj hb]; exact .nil⟩
  | cons a l ih =>
    intro bs hb
    rw [Out.mapM_cons] at hb
    obtain ⟨b, h1, hb⟩ := Out.bind_eq_ok.mp hb
    obtain ⟨bs', h2, hb⟩ := Out.bind_eq_ok.mp hb
    obtain ⟨c, h3, h4⟩ := h a (by simp) b h1
    obtain ⟨cs, h5, h6⟩ := ih (fun x hx => h x (by simp [hx])) h2
    refine ⟨c :: cs, by rw [Out.mapM_cons, h3, Out.bind_ok, h5, Out.bind_ok], ?_⟩
    rw [← Out.ok.inj hb]
    exact .cons h4 h6

theorem mapM_perm {α β : Type} {f : α → Out β} {l l' : List α} (h : l.Perm l') : ∀ {bs : List β},
    Out.mapM f l = .ok bs → ∃ bs', Out.mapM f l' = .ok bs' ∧ bs.Perm bs' := by
  induction h with
  | nil => intro bs h; exact ⟨bs, h, .refl _⟩
  | cons a _ ih =>
    intro bs h
    rw [Out.mapM_cons] at h
    obtain ⟨b, h1, h⟩ := Out.bind_eq_ok.mp h
    obtain ⟨cs, h2, h⟩ := Out.bind_eq_ok.mp h
    obtain ⟨cs', h3, h4⟩ := ih h2
    refine ⟨b :: cs', by rw [Out.mapM_cons, h1, Out.bind_ok, h3, Out.bind_ok], ?_⟩
    rw [← Out.ok.inj h]
    exact h4.cons b
  | swap a c l =>
    intro bs h
    rw [Out.mapM_cons, Out.mapM_cons] at h
    obtain ⟨b, h1, h⟩ := Out.bind_eq_ok.mp h
    obtain ⟨cs, h2, h⟩ := Out.bind_eq_ok.mp h
    obtain ⟨d, h3, h2⟩ := Out.bind_eq_ok.mp h2
    obtain ⟨es, h4, h2⟩ := Out.bind_eq_ok.mp h2
    refine ⟨d :: b :: es, ?_, ?_⟩
    · rw [Out.mapM_cons, Out.mapM_cons, h3, Out.bind_ok, h1, Out.bind_ok, h4, Out.bind_ok, Out.bind_ok]
    · rw [← Out.ok.inj h, ← Out.ok.inj h2]
      exact .swap d b es
  | trans _ _ ih1 ih2 =>
    intro bs h
    obtain ⟨bs', h1, h2⟩ := ih1 h
    obtain ⟨bs'', h3, h4⟩ := ih2 h1
    exact ⟨bs'', h3, h2.trans h4⟩

section
variable {fp : FP} {cfg : Config} {dev : Device} {ord ord' : List (Int × List Int) → List (Int × List Int)}

theorem serializeV1_ord (h : ∀ l, (ord l).Perm l) (h' : ∀ l, (ord' l).Perm l) {wl : Workload} {ts : List TState}
    {steps : List TimestepStats} {region : Option Region} {tl : Timeline}
    (hs : serializeV1 fp dev ord wl ts steps region = .ok tl) :
    ∃ tl', serializeV1 fp dev ord' wl ts steps region = .ok tl' ∧ tl.transfers.Perm tl'.transfers ∧
      tl'.timesteps = tl.timesteps := by
  unfold serializeV1 at hs
  obtain ⟨_, h1, hs⟩ := Out.bind_eq_ok.mp hs
  obtain ⟨trs, h2, hs⟩ := Out.bind_eq_ok.mp hs
  obtain ⟨st, h3, hs⟩ := Out.bind_eq_ok.mp hs
  obtain ⟨trs', h4, h5⟩ := mapM_perm ((h (timelineGroups wl ts).members).trans (h' (timelineGroups wl ts).members).symm) h2
  refine ⟨⟨trs'.flatten, st⟩, ?_, ?_, ?_⟩
  · unfold serializeV1
    simp only
    rw [h1, Out.bind_ok, h4, Out.bind_ok, h3]
    rfl
  · rw [← Out.ok.inj hs]; exact h5.flatten
  · rw [← Out.ok.inj hs]

/-- The same document, apart from the order of the elements of `noc_transfers`. -/
def SameButOrder (j j' : Json) : Prop :=
  j' = j ∨ ∃ (a b : List (String × Json)) (l l' : List Json), l.Perm l' ∧
    j = .obj (a ++ ("noc_transfers", .arr l) :: b) ∧ j' = .obj (a ++ ("noc_transfers", .arr l') :: b)

theorem documentV1_ord (h : ∀ l, (ord l).Perm l) (h' : ∀ l, (ord' l).Perm l) {tf : InputFile} {d : RunData}
    {region : Option Region} {j : Json} (hj : documentV1 fp cfg dev ord tf d region = .ok j) :
    ∃ j', documentV1 fp cfg dev ord' tf d region = .ok j' ∧ SameButOrder j j' ∧
      ∀ i n r, SameButOrder (addSplitInfo i n r j) (addSplitInfo i n r j') := by
  unfold documentV1 at hj ⊢
  obtain ⟨chips, h1, hj⟩ := Out.bind_eq_ok.mp hj
  rw [h1, Out.bind_ok]
  cases chips with
  | none => exact ⟨j, hj, Or.inl rfl, fun _ _ _ => Or.inl rfl⟩
  | some chips =>
    simp only at hj ⊢
    obtain ⟨tl, h2, hj⟩ := Out.bind_eq_ok.mp hj
    obtain ⟨z, h3, hj⟩ := Out.bind_eq_ok.mp hj
    obtain ⟨tl', h4, h5, h6⟩ := serializeV1_ord h h' h2
    rw [h4, Out.bind_ok, h3, Out.bind_ok, ← Out.ok.inj hj, h6]
    refine ⟨_, rfl, Or.inr ⟨[_, _], [_, _], _, _, h5.map _, rfl, rfl⟩, fun i n r => Or.inr ⟨[_, _], [_, _], _, _, h5.map _, rfl, rfl⟩⟩

theorem emitFiles_ord (h : ∀ l, (ord l).Perm l) (h' : ∀ l, (ord' l).Perm l) {tc : TimelineConfig} {wl : Workload}
    {ts : List TState} {rep : Report} {files : List (List Char × Json)}
    (he : emitFiles fp cfg dev ord tc wl ts rep = .ok files) :
    ∃ files', emitFiles fp cfg dev ord' tc wl ts rep = .ok files' ∧
      List.Forall₂ (fun f f' => f'.1 = f.1 ∧ SameButOrder f.2 f'.2) files files' := by
  unfold emitFiles at he ⊢
  cases hm : rep.lookup MESH_DEVICE with
  | none => rw [hm] at he; cases he
  | some r =>
    rw [hm] at he
    simp only at he ⊢
    by_cases hg : tc.legacy = true
    · rw [if_pos hg] at he ⊢
      obtain ⟨j, h1, he⟩ := Out.bind_eq_ok.mp he
      rw [h1, Out.bind_ok, ← Out.ok.inj he]
      exact ⟨_, rfl, .cons ⟨rfl, Or.inl rfl⟩ .nil⟩
    · rw [if_neg hg] at he ⊢
      obtain ⟨j, h1, he⟩ := Out.bind_eq_ok.mp he
      obtain ⟨l, h2, he⟩ := Out.bind_eq_ok.mp he
      obtain ⟨j', h3, h4, _⟩ := documentV1_ord h h' h1
      unfold splitFiles at h2
      obtain ⟨regions, h5, h2⟩ := Out.bind_eq_ok.mp h2
      obtain ⟨l', h6, h7⟩ := mapM_forall2 (R := fun f f' => f'.1 = f.1 ∧ SameButOrder f.2 f'.2)
        (g := fun (e : Nat × Region) => documentV1 fp cfg dev ord' tc.topology ⟨wl, ts, r.stats, r.summary⟩ (some e.2) >>=
          fun j => .ok (tc.fileName (tc.splitName e.1), addSplitInfo e.1 regions.length e.2 j)) (fun e _ b hb => by
        obtain ⟨x, k1, hb⟩ := Out.bind_eq_ok.mp hb
        obtain ⟨x', k2, _, k3⟩ := documentV1_ord h h' k1
        refine ⟨_, by rw [k2, Out.bind_ok], ?_⟩
        rw [← Out.ok.inj hb]
        exact ⟨rfl, k3 _ _ _⟩) h2
      refine ⟨(tc.fileName tc.base, j') :: l', ?_, ?_⟩
      · rw [h3, Out.bind_ok]
        unfold splitFiles
        rw [h5, Out.bind_ok, h6, Out.bind_ok]
      · rw [← Out.ok.inj he]
        exact .cons ⟨rfl, h4⟩ h7

end

end NPE
