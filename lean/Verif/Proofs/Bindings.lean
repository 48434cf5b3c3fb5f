import Verif.Model.Api
import Verif.Spec.Bindings

/-
Building a workload in Python and loading it from a file.
-/

namespace NPE
open NPE.Spec.Bind

theorem Bind.int_ok {n m : Int} (h : Bind.int n = .ok m) : m = n ∧ -2147483648 ≤ n ∧ n < 2147483648 := by
  unfold Bind.int at h
  split at h
  · next hh => exact ⟨(Out.ok.inj h).symm, hh⟩
  · cases h

theorem Bind.u32_ok {n : Int} {m : Nat} (h : Bind.u32 n = .ok m) : (m : Int) = n ∧ n < 4294967296 := by
  unfold Bind.u32 at h
  split at h
  · next hh =>
    rw [← Out.ok.inj h]
    exact ⟨Int.toNat_of_nonneg hh.1, hh.2⟩
  · cases h

theorem Bind.coord_ok {c : Int × Int × Int} {x : Coord} (h : Bind.coord c = .ok x) : x = mkCoord c.1 c.2.1 c.2.2 := by
  unfold Bind.coord at h
  obtain ⟨d, h1, h⟩ := Out.bind_eq_ok.mp h
  obtain ⟨r, h2, h⟩ := Out.bind_eq_ok.mp h
  obtain ⟨k, h3, h⟩ := Out.bind_eq_ok.mp h
  rw [← Out.ok.inj h, (Bind.int_ok h1).1, (Bind.int_ok h2).1, (Bind.int_ok h3).1]

theorem toU32_of_u32 {n : Int} {m : Nat} (h : Bind.u32 n = .ok m) : toU32 n = m := by
  obtain ⟨h1, h2⟩ := Bind.u32_ok h
  unfold toU32
  omega

theorem says_load {fp : FP} {a : Bind.Args} {t : Json} {x : Transfer} (h : Says fp a t) (hx : Bind.transfer fp a = .ok x) :
    loadTransfer fp t = .ok (some x) := by
  unfold Bind.transfer at hx
  obtain ⟨s, h1, hx⟩ := Out.bind_eq_ok.mp hx
  obtain ⟨d, h2, hx⟩ := Out.bind_eq_ok.mp hx
  obtain ⟨p, h3, hx⟩ := Out.bind_eq_ok.mp hx
  obtain ⟨n, h4, hx⟩ := Out.bind_eq_ok.mp hx
  obtain ⟨o, h5, hx⟩ := Out.bind_eq_ok.mp hx
  have hs := Bind.coord_ok h1
  have hnoc : nocOf (nocText a.noc) = a.noc := by
    cases a.noc <;> rfl
  unfold loadTransfer
  rw [h.packetSize, h.numPackets, h.srcX, h.srcY]
  simp only
  rw [h.chip]
  have hd := h.dst
  have key : (if t.intD "dst_x" (-1) = -1 ∧ t.intD "dst_y" (-1) = -1 then
        match t.int? "mcast_start_x", t.int? "mcast_start_y", t.int? "mcast_end_x", t.int? "mcast_end_y" with
        | some sx, some sy, some ex, some ey =>
          mkMcast (mkCoord a.src.1 sy sx) (mkCoord a.src.1 ey ex) >>= fun gs => .ok (some (.mcast gs))
        | _, _, _, _ => .ok none
      else .ok (some (.unicast (mkCoord a.src.1 (t.intD "dst_y" (-1)) (t.intD "dst_x" (-1))))) : Out (Option Dest)) =
      .ok (some d) := by
    unfold Bind.DstArg.dest at h2
    cases hdst : a.dst with
    | core c =>
      rw [hdst] at h2 hd
      obtain ⟨c1, c2, c3, c4⟩ := hd
      simp only at h2
      obtain ⟨k, k1, h2⟩ := Out.bind_eq_ok.mp h2
      rw [c2, c3, if_neg (fun hh => c4 ⟨hh.2, hh.1⟩), ← Out.ok.inj h2, Bind.coord_ok k1, c1]
    | rect b c =>
      rw [hdst] at h2 hd
      obtain ⟨c1, c2, c3, c4, c5, c6, c7, c8⟩ := hd
      simp only at h2
      obtain ⟨k, k1, h2⟩ := Out.bind_eq_ok.mp h2
      obtain ⟨l, l1, h2⟩ := Out.bind_eq_ok.mp h2
      obtain ⟨gs, g1, h2⟩ := Out.bind_eq_ok.mp h2
      rw [if_pos ⟨c3, c4⟩, c5, c6, c7, c8]
      simp only
      rw [Bind.coord_ok k1, Bind.coord_ok l1, c1, c2] at g1
      rw [g1, ← Out.ok.inj h2]
      rfl
  refine Out.bind_eq_ok.mpr ⟨some d, key, ?_⟩
  simp only
  rw [h.noc, h.rate, h.offset, h.type]
  simp only
  rw [hnoc, toU32_of_u32 h3, toU32_of_u32 h4, ← hs, ← (Bind.int_ok h5).1, ← Out.ok.inj hx]

theorem says_transfers {fp : FP} {as : List Bind.Args} {ts : List Json} (h : List.Forall₂ (Says fp) as ts) :
    ∀ {l : List Transfer}, Out.mapM (Bind.transfer fp) as = .ok l → Out.mapM (loadTransfer fp) ts = .ok (l.map some) := by
  induction h with
  | nil => intro l hl; rw [← Out.ok.inj hl]; rfl
  | @cons a t as ts h1 _ ih =>
    intro l hl
    rw [Out.mapM_cons] at hl ⊢
    obtain ⟨x, hx, hl⟩ := Out.bind_eq_ok.mp hl
    obtain ⟨xs, hxs, hl⟩ := Out.bind_eq_ok.mp hl
    rw [says_load h1 hx, Out.bind_ok, ih hxs, ← Out.ok.inj hl]
    rfl

/-- A workload with other golden cycles. -/
def Workload.withGolden (wl : Workload) (g : GoldenMap) : Workload := { wl with golden := g }

theorem says_phases {fp : FP} {phases : List (List Bind.Args)} {l : List Json}
    (h : List.Forall₂ (fun as ph => ∃ ts, (Json.field "transfers" ph).bind Json.asArr = some ts ∧
      List.Forall₂ (Says fp) as ts) phases l) (g : GoldenMap) :
    ∀ {w w' : Workload}, Out.foldlM (Bind.addPhase fp) w phases = .ok w' →
      Out.foldlM (loadPhase fp) (w.withGolden g) l = .ok (w'.withGolden g) := by
  induction h with
  | nil => intro w w' hw; rw [← Out.ok.inj hw]; rfl
  | @cons as ph phases l h1 _ ih =>
    intro w w' hw
    rw [Out.foldlM_cons] at hw ⊢
    obtain ⟨w1, h2, hw⟩ := Out.bind_eq_ok.mp hw
    obtain ⟨ts, t1, t2⟩ := h1
    unfold Bind.addPhase at h2
    obtain ⟨xs, x1, h2⟩ := Out.bind_eq_ok.mp h2
    have : loadPhase fp (w.withGolden g) ph = .ok (w1.withGolden g) := by
      unfold loadPhase
      rw [t1]
      simp only
      rw [says_transfers t2 x1, ← Out.ok.inj h2]
      show Out.ok _ = _
      rw [List.filterMap_map, Function.id_comp, List.filterMap_some]
      rfl
    rw [this]
    exact ih hw

/-! ### The path of the file has no influence -/

/-- The workload with another path. -/
def Workload.withPath (wl : Workload) (p : Option String) : Workload := { wl with sourcePath := p }

theorem mapTransfersM_path (f : Transfer → Out Transfer) (wl : Workload) (p : Option String) :
    (wl.withPath p).mapTransfersM f = wl.mapTransfersM f >>= fun w => .ok (w.withPath p) := by
  unfold Workload.mapTransfersM
  show Out.bind (Out.mapM _ wl.phases) _ = Out.bind (Out.bind (Out.mapM _ wl.phases) _) _
  cases Out.mapM (fun (ph : Phase) => do
    let ts ← Out.mapM f ph.transfers
    return ({ ph with transfers := ts } : Phase)) wl.phases <;> rfl

/-- What follows preprocessing. -/
def Api.rest (fp : FP) (ho : HashOrder) (api : Api) (w : Workload) : Out Result :=
  w.validate api.dev >>= fun v =>
    if v then catchNpe (api.runPerf fp ho w) else pure (.inr .workloadValidationFailed)

theorem rest_path (fp : FP) (ho : HashOrder) (api : Api) (w : Workload) (p : Option String) :
    api.rest fp ho (w.withPath p) = api.rest fp ho w := rfl

/-- Equal up to the path. -/
def SameButPath (x y : Out Workload) : Prop :=
  (x >>= fun w => .ok (w.withPath none)) = (y >>= fun w => .ok (w.withPath none))

theorem SameButPath.bind {x y : Out Workload} (h : SameButPath x y) {f g : Workload → Out Workload}
    (hf : ∀ w p, SameButPath (f (w.withPath p)) (g w)) : SameButPath (x >>= f) (y >>= g) := by
  have e : ∀ w : Workload, w = (w.withPath none).withPath w.sourcePath := fun w => rfl
  cases x <;> cases y <;> first
    | (simp only [SameButPath] at h; cases h; done)
    | skip
  case ok.ok a b =>
    have h1 : a.withPath none = b.withPath none := Out.ok.inj h
    have h2 : a = b.withPath a.sourcePath := by rw [e a, h1]; rfl
    rw [Out.bind_ok, Out.bind_ok, h2]
    exact hf b _
  all_goals exact h

theorem preprocess_path (fp : FP) (api : Api) (wl : Workload) (p : Option String) :
    SameButPath (api.preprocess fp (wl.withPath p)) (api.preprocess fp wl) := by
  have hm : ∀ f (w : Workload) q, SameButPath ((w.withPath q).mapTransfersM f) (w.mapTransfersM f) := by
    intro f w q
    rw [mapTransfersM_path]
    cases w.mapTransfersM f <;> rfl
  unfold Api.preprocess
  refine SameButPath.bind ?_ fun w q => SameButPath.bind ?_ fun w q => ?_
  · split
    · exact hm _ _ _
    · rfl
  · split
    · exact hm _ _ _
    · rfl
  · split <;> rfl

theorem runNPE_path (fp : FP) (ho : HashOrder) (api : Api) (wl : Workload) (p : Option String) :
    api.runNPE fp ho (wl.withPath p) = api.runNPE fp ho wl := by
  show (api.preprocess fp (wl.withPath p) >>= api.rest fp ho) = (api.preprocess fp wl >>= api.rest fp ho)
  have h := preprocess_path fp api wl p
  have key : ∀ x : Out Workload, (x >>= api.rest fp ho) =
      ((x >>= fun w => .ok (w.withPath none)) >>= api.rest fp ho) := by
    intro x; cases x <;> rfl
  rw [key, key (api.preprocess fp wl), h]

end NPE
