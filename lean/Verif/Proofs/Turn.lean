import Verif.Proofs.FluidMove
import Verif.Spec.Turn
import Mathlib.Tactic.LinearCombination

/-
Symmetries of the torus.
-/

namespace NPE
open NPE.Spec NPE.Spec.Fluid

/-- A map of cores, NoCs and kinds of links that keeps routes. -/
structure Turn (dev dev' : Device) (pos : Coord → Coord) (chip : Int → Int) (noc : Noc → Noc)
    (ty : LinkType → LinkType) : Prop where
  core : ∀ c, IsCore dev c → IsCore dev' (pos c)
  onChip : ∀ c, (pos c).dev = chip c.dev
  chipInj : ∀ a b, IsCore dev a → IsCore dev b → chip a.dev = chip b.dev → a.dev = b.dev
  inj : ∀ a b, IsCore dev a → IsCore dev b → (pos a).row = (pos b).row → (pos a).col = (pos b).col →
    a.row = b.row ∧ a.col = b.col
  fn : ∀ a b : Coord, a.row = b.row → a.col = b.col → (pos a).row = (pos b).row ∧ (pos a).col = (pos b).col
  nocInj : Function.Injective noc
  tyInj : Function.Injective ty
  legs : ∀ d n s e, IsCore dev s → IsCore dev e →
    dev'.legs (chip d) (noc n) (pos s) (pos e) = (dev.legs d n s e).map fun l => ⟨pos l.coord, ty l.type⟩

theorem count_map_on {α β : Type} [DecidableEq α] [DecidableEq β] {f : α → β} {x : α} : ∀ l : List α,
    (∀ y ∈ l, f y = f x → y = x) → (l.map f).count (f x) = l.count x := by
  intro l
  induction l with
  | nil => intro _; rfl
  | cons y l ih =>
    intro h
    have ih := ih fun z hz => h z (List.mem_cons_of_mem _ hz)
    rw [List.map_cons, List.count_cons, List.count_cons, ih]
    by_cases hy : y = x
    · subst hy; simp
    · have : f y ≠ f x := fun e => hy (h y (List.mem_cons_self ..) e)
      simp [hy, this]

/-- Transfers stand at their ids. -/
theorem slot_id {fp : FP} {dev : Device} {ho : HashOrder} {wl : Workload} {s0 : Sim}
    (h0 : initSim fp dev ho wl = .ok s0) {i : Nat} {t : TState} (h : s0.ts[i]? = some t) : t.params.id = i := by
  obtain ⟨ts, I⟩ := init0 h0
  obtain ⟨q, h1, h2, _⟩ := I.get h
  rw [← h2]
  exact I.dense i q h1

/-- Identifiers denote one list of links. -/
theorem denotes_unique {dev : Device} : ∀ {ids : List Int} {ls ls' : List LinkAttr}, Denotes dev ids ls → Denotes dev ids ls' →
    ls = ls' := by
  intro ids
  induction ids with
  | nil =>
    intro ls ls' h h'
    cases h; cases h'; rfl
  | cons i ids ih =>
    intro ls ls' h h'
    cases h with
    | cons h1 h2 =>
      cases h' with
      | cons h3 h4 =>
        rw [h1] at h3
        rw [Out.ok.inj h3, ih h2 h4]

/-- The ids of a workload that can be initialised are distinct. -/
theorem ids_unique {fp : FP} {dev : Device} {ho : HashOrder} {wl : Workload} {s0 : Sim}
    (h0 : initSim fp dev ho wl = .ok s0) : ∀ t ∈ wl.transfers, ∀ u ∈ wl.transfers, t.id = u.id → t = u := by
  have L := (initSim_ok h0).1
  have hsub : ((List.range wl.transfers.length).map fun i : Nat => (i : Int)) ⊆ wl.transfers.map (·.id) := by
    intro x hx
    obtain ⟨i, hi, rfl⟩ := List.mem_map.mp hx
    rw [List.mem_range, ← L.len] at hi
    have hg := List.getElem?_eq_getElem hi
    exact List.mem_map.mpr ⟨_, (L.slots i _ hg).1, slot_id h0 hg⟩
  have hnd : ((List.range wl.transfers.length).map fun i : Nat => (i : Int)).Nodup :=
    List.nodup_range.map fun a b e => by exact_mod_cast e
  have hp := (List.subperm_of_subset hnd hsub).perm_of_length_le (by simp)
  have hnd' : (wl.transfers.map (·.id)).Nodup := hp.nodup_iff.mp hnd
  intro t ht u hu e
  exact List.inj_on_of_nodup_map hnd' ht hu e

section
variable {fp : FP} {dev dev' : Device} {ho ho' : HashOrder} {wl wl' : Workload} {s0 s0' : Sim}
  {pos : Coord → Coord} {chip : Int → Int} {noc : Noc → Noc} {ty : LinkType → LinkType}

/-- The image of a link. -/
def turnLink (dev dev' : Device) (pos : Coord → Coord) (ty : LinkType → LinkType) (l : Int) : Int :=
  match dev.getLinkAttributes l with
  | .ok a => dev'.linkIdx ⟨pos a.coord, ty a.type⟩
  | _ => 0

theorem turnLink_eq {a : LinkAttr} (h : dev.On a.coord) :
    turnLink dev dev' pos ty (dev.linkIdx a) = dev'.linkIdx ⟨pos a.coord, ty a.type⟩ := by
  unfold turnLink
  rw [(dev.getLinkAttributes_eq _ a).mpr ⟨h, rfl⟩]

theorem linkIdx_inj {a b : LinkAttr} (ha : dev.On a.coord) (hb : dev.On b.coord)
    (h : (dev.linkIdx a : Int) = dev.linkIdx b) : a = b := by
  have h1 := (dev.getLinkAttributes_eq _ a).mpr ⟨ha, rfl⟩
  have h2 := (dev.getLinkAttributes_eq _ b).mpr ⟨hb, rfl⟩
  rw [h, h2] at h1
  exact (Out.ok.inj h1).symm

theorem Turn.coord_inj (T : Turn dev dev' pos chip noc ty) {a b : Coord} (ha : IsCore dev a) (hb : IsCore dev b)
    (h : pos a = pos b) : a = b := by
  obtain ⟨h1, h2⟩ := T.inj a b ha hb (by rw [h]) (by rw [h])
  have h3 : a.dev = b.dev := T.chipInj a b ha hb (by rw [← T.onChip a, ← T.onChip b, h])
  obtain ⟨ad, ar, ac⟩ := a
  obtain ⟨bd, br, bc⟩ := b
  simp only at h1 h2 h3
  rw [h1, h2, h3]

theorem Turn.sameCore (T : Turn dev dev' pos chip noc ty) (hm : dev'.multichip = dev.multichip) {a b : Coord}
    (ha : IsCore dev a) (hb : IsCore dev b) : SameCore dev' (pos a) (pos b) ↔ SameCore dev a b := by
  unfold SameCore
  rw [hm, T.onChip, T.onChip]
  constructor
  · rintro ⟨h1, h2, h3⟩
    exact ⟨fun h => T.chipInj a b ha hb (h1 h), T.inj a b ha hb h2 h3⟩
  · rintro ⟨h1, h2, h3⟩
    exact ⟨fun h => congrArg chip (h1 h), T.fn a b h2 h3⟩

/-- Kind of the first link of a route along given links. -/
theorem firstLink_legs {t : TState} {ls : List LinkAttr} (h : t.route = ls.map fun l => (dev.linkIdx l : Int))
    (hon : ∀ l ∈ ls, dev.On l.coord) (k : Option LinkType) : FirstLink dev t k ↔ k = ls.head?.map (·.type) := by
  unfold FirstLink
  rw [h]
  cases ls with
  | nil => exact Iff.rfl
  | cons l ls =>
    simp only [List.map_cons, List.head?_cons, Option.map_some]
    constructor
    · rintro ⟨a, ha, rfl⟩
      rw [(dev.getLinkAttributes_eq _ l).mpr ⟨hon l (List.mem_cons_self ..), rfl⟩] at ha
      rw [Out.ok.inj ha]
    · rintro rfl
      exact ⟨l, (dev.getLinkAttributes_eq _ l).mpr ⟨hon l (List.mem_cons_self ..), rfl⟩, rfl⟩

theorem Turn.alike (T : Turn dev dev' pos chip noc ty) (hdev : DeviceOk dev) (hdev' : DeviceOk dev')
    (hm : dev'.multichip = dev.multichip) (htbt : dev'.tbt = dev.tbt)
    (h0 : initSim fp dev ho wl = .ok s0) (h0' : initSim fp dev' ho' wl' = .ok s0')
    (hw : ∀ t ∈ wl.transfers, Within dev t) (hS : wl'.transfers = wl.transfers.map (relocated pos noc))
    (hsink : ∀ t ∈ wl.transfers, ∀ d, t.dst = .unicast d →
      dev'.getSinkAbsorptionRate (pos d) = dev.getSinkAbsorptionRate d)
    (hdelay : ∀ t ∈ wl.transfers, HasParent t → ∀ p ∈ wl.transfers,
      groupDelay fp dev' (relocated pos noc t) (chip p.src.dev) = groupDelay fp dev t p.src.dev) :
    Alike fp dev dev' s0 s0' := by
  have L := (initSim_ok h0).1
  have L' := (initSim_ok h0').1
  have hlen : s0'.ts.length = s0.ts.length := by rw [L.len, L'.len, hS, List.length_map]
  -- what is known of the transfers at a place
  have get : ∀ (i : Nat) (t t' : TState), s0.ts[i]? = some t → s0'.ts[i]? = some t' →
      t.params ∈ wl.transfers ∧ t'.params = relocated pos noc t.params ∧
      ∃ d, t.params.dst = .unicast d ∧ IsCore dev t.params.src ∧ IsCore dev d ∧
        t.route = (dev.legs t.params.src.dev t.params.noc t.params.src d).map (fun l => (dev.linkIdx l : Int)) ∧
        t'.route = ((dev.legs t.params.src.dev t.params.noc t.params.src d).map
          fun l => (⟨pos l.coord, ty l.type⟩ : LinkAttr)).map (fun l => (dev'.linkIdx l : Int)) ∧
        (∀ l ∈ dev.legs t.params.src.dev t.params.noc t.params.src d, dev.On l.coord) := by
    intro i t t' ht ht'
    obtain ⟨m, hr, _⟩ := L.slots i t ht
    obtain ⟨m', hr', _⟩ := L'.slots i t' ht'
    have e := slot_id h0 ht
    have e' := slot_id h0' ht'
    have hp : t'.params = relocated pos noc t.params := by
      rw [hS] at m'
      obtain ⟨u, hu, he⟩ := List.mem_map.mp m'
      have : u = t.params := ids_unique h0 u hu _ m (by
        have : u.id = t'.params.id := by rw [← he]; rfl
        rw [this, e', e])
      rw [← he, this]
    obtain ⟨hs, d, hd, hdc, hsd⟩ := hw _ m
    refine ⟨m, hp, d, hd, hs, hdc, ?_, ?_, dev.legs_on _ _ _ _ hs.1 hs.2 hdc.2⟩
    · rw [hd, dev.route_unicast_eq hdev _ _ _ _ hs hdc hsd] at hr
      exact (Out.ok.inj hr).symm
    · have hd' : t'.params.dst = .unicast (pos d) := by rw [hp]; unfold relocated; simp only; rw [hd]
      have hs' : t'.params.src = pos t.params.src := by rw [hp]; rfl
      have hn' : t'.params.noc = noc t.params.noc := by rw [hp]; rfl
      rw [hd', hs', hn', dev'.route_unicast_eq hdev' _ _ _ _ (T.core _ hs) (T.core _ hdc)
        (by rw [T.onChip, T.onChip, hsd]), T.onChip, T.legs _ _ _ _ hs hdc] at hr'
      exact (Out.ok.inj hr').symm
  refine ⟨hlen, ?_, ?_, ?_, ?_, ?_, ?_⟩
  · intro i t t' ht ht'
    obtain ⟨m, hp, d, hd, hs, _⟩ := get i t t' ht ht'
    refine ⟨by rw [hp]; rfl, by rw [hp]; rfl, by rw [hp]; rfl, ?_, by rw [hp]; rfl, by rw [hp]; rfl, by rw [hp]; rfl⟩
    rw [hp]
    unfold own Device.maxBw
    rw [htbt]
    rfl
  · intro i j t t' p p' ht ht' hpar hj hj'
    obtain ⟨m, hp, _⟩ := get i t t' ht ht'
    obtain ⟨m2, hp2, _⟩ := get j p p' hj hj'
    have e : p'.params.src.dev = chip p.params.src.dev := by rw [hp2]; exact T.onChip _
    rw [hp, e]
    exact hdelay _ m hpar _ m2
  · intro i t t' ht ht'
    obtain ⟨m, hp, d, hd, hs, hdc, hr, hr', hon⟩ := get i t t' ht ht'
    have key : ∀ ls : List LinkAttr, (∀ l ∈ ls, dev.On l.coord) →
        (ls.map fun l => (⟨pos l.coord, ty l.type⟩ : LinkAttr)).map (fun l => (dev'.linkIdx l : Int)) =
        (ls.map fun l => (dev.linkIdx l : Int)).map (turnLink dev dev' pos ty) := by
      intro ls hls
      rw [List.map_map, List.map_map]
      refine List.map_congr_left fun l hl => ?_
      exact (turnLink_eq (hls l hl)).symm
    refine ⟨turnLink dev dev' pos ty, by rw [hr, hr', key _ hon], fun l hl j u u' hu hu' => ?_⟩
    obtain ⟨_, _, d2, _, _, _, q, q', hon2⟩ := get j u u' hu hu'
    rw [q', key _ hon2, ← q]
    refine count_map_on _ fun y hy e => ?_
    rw [hr] at hl
    rw [q] at hy
    obtain ⟨a, ha, rfl⟩ := List.mem_map.mp hl
    obtain ⟨b, hb, rfl⟩ := List.mem_map.mp hy
    rw [turnLink_eq (hon2 b hb), turnLink_eq (hon a ha)] at e
    have e2 := linkIdx_inj (dev := dev') (a := ⟨pos b.coord, ty b.type⟩) (b := ⟨pos a.coord, ty a.type⟩) (T.core _ (hon2 b hb)) (T.core _ (hon a ha)) e
    have e3 : b.coord = a.coord := T.coord_inj (hon2 b hb) (hon a ha) (congrArg LinkAttr.coord e2)
    have e4 : b.type = a.type := T.tyInj (congrArg LinkAttr.type e2)
    have : b = a := by cases a; cases b; simp only at e3 e4; rw [e3, e4]
    rw [this]
  · intro i j t t' u u' ht ht' hu hu'
    obtain ⟨_, hp, _, _, hs, _⟩ := get i t t' ht ht'
    obtain ⟨_, hq, _, _, hs2, _⟩ := get j u u' hu hu'
    rw [hp, hq]
    show (noc u.params.noc = noc t.params.noc ∧ SameCore dev' (pos _) (pos _)) ↔ _
    rw [T.sameCore hm hs2 hs]
    exact and_congr_left fun _ => T.nocInj.eq_iff
  · intro i t t' ht ht'
    obtain ⟨m, hp, d, hd, hs, hdc, _⟩ := get i t t' ht ht'
    refine ⟨d, pos d, hd, by rw [hp]; unfold relocated; simp only; rw [hd], hsink _ m d hd, ?_⟩
    intro j u u' e e' hu hu' he he'
    obtain ⟨_, hq, d2, hd2, hs2, hdc2, _⟩ := get j u u' hu hu'
    have e1 : e = d2 := by rw [he] at hd2; exact Dest.unicast.inj hd2
    have e2 : e' = pos d2 := by
      rw [hq] at he'
      unfold relocated at he'
      simp only [hd2] at he'
      exact (Dest.unicast.inj he').symm
    rw [e1, e2, hp, hq]
    show (noc u.params.noc = noc t.params.noc ∧ _) ↔ _
    rw [T.sameCore hm hdc2 hdc]
    exact and_congr_left fun _ => T.nocInj.eq_iff
  · intro i j t t' u u' ht ht' hu hu'
    obtain ⟨_, hp, d, hd, hs, hdc, hr, hr', hon⟩ := get i t t' ht ht'
    obtain ⟨_, hq, d2, hd2, hs2, hdc2, q, q', hon2⟩ := get j u u' hu hu'
    have hon' : ∀ l ∈ (dev.legs t.params.src.dev t.params.noc t.params.src d).map
        (fun l => (⟨pos l.coord, ty l.type⟩ : LinkAttr)), dev'.On l.coord := by
      intro l hl
      obtain ⟨a, ha, rfl⟩ := List.mem_map.mp hl
      exact T.core _ (hon a ha)
    have hon2' : ∀ l ∈ (dev.legs u.params.src.dev u.params.noc u.params.src d2).map
        (fun l => (⟨pos l.coord, ty l.type⟩ : LinkAttr)), dev'.On l.coord := by
      intro l hl
      obtain ⟨a, ha, rfl⟩ := List.mem_map.mp hl
      exact T.core _ (hon2 a ha)
    have ex : ∀ x y : Option LinkType, (∃ k, k = x ∧ k = y) ↔ x = y :=
      fun x y => ⟨fun ⟨k, a, b⟩ => a.symm.trans b, fun h => ⟨x, rfl, h⟩⟩
    unfold SameLane
    simp only [firstLink_legs hr hon, firstLink_legs hr' hon', firstLink_legs q hon2, firstLink_legs q' hon2', ex]
    have hh : ∀ ls : List LinkAttr, ((ls.map fun l => (⟨pos l.coord, ty l.type⟩ : LinkAttr)).head?.map (·.type)) =
        (ls.head?.map (·.type)).map ty := by
      intro ls; cases ls <;> rfl
    rw [hh, hh, hp, hq]
    show (noc t.params.noc = noc u.params.noc ∧ (pos _).row = (pos _).row ∧ (pos _).col = (pos _).col ∧ _) ↔ _
    have hopt : ∀ x y : Option LinkType, x.map ty = y.map ty ↔ x = y := fun x y =>
      (Option.map_injective T.tyInj).eq_iff
    rw [hopt]
    constructor
    · rintro ⟨a, b, c, e⟩
      obtain ⟨b, c⟩ := T.inj _ _ hs hs2 b c
      exact ⟨T.nocInj a, b, c, e⟩
    · rintro ⟨a, b, c, e⟩
      obtain ⟨b, c⟩ := T.fn _ _ b c
      exact ⟨by rw [a], b, c, e⟩

end

/-! ### Translations -/

theorem mod_shift_inj {a b k m : Int} (ha : 0 ≤ a ∧ a < m) (hb : 0 ≤ b ∧ b < m) (h : (a + k) % m = (b + k) % m) : a = b := by
  have h2 : (a + k - k) % m = (b + k - k) % m := by rw [Int.sub_emod, h, ← Int.sub_emod]
  rw [Int.add_sub_cancel, Int.add_sub_cancel, Int.emod_eq_of_lt ha.1 ha.2, Int.emod_eq_of_lt hb.1 hb.2] at h2
  exact h2

theorem mod_neg_inj {a b m : Int} (ha : 0 ≤ a ∧ a < m) (hb : 0 ≤ b ∧ b < m) (h : (-a) % m = (-b) % m) : a = b := by
  have h2 : (-(-a)) % m = (-(-b)) % m := by
    rw [← Int.zero_sub (-a), ← Int.zero_sub (-b), Int.sub_emod, h, ← Int.sub_emod]
  rw [Int.neg_neg, Int.neg_neg, Int.emod_eq_of_lt ha.1 ha.2, Int.emod_eq_of_lt hb.1 hb.2] at h2
  exact h2

theorem shift_diff (a b k m : Int) : ((a + k) % m - (b + k) % m) % m = (a - b) % m := by
  rw [← Int.sub_emod]; congr 1; ring

theorem flip_diff (a b m : Int) : ((-a) % m - (-b) % m) % m = (b - a) % m := by
  rw [← Int.sub_emod]; congr 1; ring

theorem turn_shift {dev : Device} (hdev : DeviceOk dev) (dr dc : Int) :
    Turn dev dev (shiftBy dev.rows dev.cols dr dc) id id id := by
  have hr : (0 : Int) < dev.rows := by exact_mod_cast hdev.rows_pos
  have hc : (0 : Int) < dev.cols := by exact_mod_cast hdev.cols_pos
  refine ⟨?_, fun _ => rfl, fun _ _ _ _ h => h, ?_, ?_, Function.injective_id, Function.injective_id, ?_⟩
  · intro c h
    exact ⟨h.1, ⟨Int.emod_nonneg _ hr.ne', Int.emod_lt_of_pos _ hr⟩, ⟨Int.emod_nonneg _ hc.ne', Int.emod_lt_of_pos _ hc⟩⟩
  · intro a b ha hb h1 h2
    exact ⟨mod_shift_inj ha.2.1 hb.2.1 h1, mod_shift_inj ha.2.2 hb.2.2 h2⟩
  · intro a b h1 h2
    unfold shiftBy
    simp only [h1, h2, and_self]
  · intro d n s e hs he
    cases n
    · simp only [Device.legs, Device.eastLeg, Device.southLeg, shiftBy, id, List.map_append, List.map_map, shift_diff]
      congr 1
      · refine List.map_congr_left fun k _ => ?_
        simp only [Function.comp, Int.emod_add_emod, LinkAttr.mk.injEq, Coord.mk.injEq, true_and, and_true]
        congr 1; ring
      · refine List.map_congr_left fun k _ => ?_
        simp only [Function.comp, Int.emod_add_emod, LinkAttr.mk.injEq, Coord.mk.injEq, true_and, and_true]
        congr 1; ring
    · simp only [Device.legs, Device.northLeg, Device.westLeg, shiftBy, id, List.map_append, List.map_map, shift_diff]
      congr 1
      · refine List.map_congr_left fun k _ => ?_
        simp only [Function.comp, Int.emod_add_emod, Int.emod_sub_emod, LinkAttr.mk.injEq, Coord.mk.injEq, true_and, and_true]
        congr 1; ring
      · refine List.map_congr_left fun k _ => ?_
        simp only [Function.comp, Int.emod_add_emod, Int.emod_sub_emod, LinkAttr.mk.injEq, Coord.mk.injEq, true_and, and_true]
        congr 1; ring

/-- The mirror image. -/
theorem turn_mirror {dev : Device} (hdev : DeviceOk dev) (core : Nat → Nat → CoreType) :
    Turn dev (transposed dev core) (mirrored dev.rows dev.cols) id otherNoc otherLink := by
  have hr : (0 : Int) < dev.rows := by exact_mod_cast hdev.rows_pos
  have hc : (0 : Int) < dev.cols := by exact_mod_cast hdev.cols_pos
  refine ⟨?_, fun _ => rfl, fun _ _ _ _ h => h, ?_, ?_, ?_, ?_, ?_⟩
  · intro c h
    exact ⟨h.1, ⟨Int.emod_nonneg _ hc.ne', Int.emod_lt_of_pos _ hc⟩, ⟨Int.emod_nonneg _ hr.ne', Int.emod_lt_of_pos _ hr⟩⟩
  · intro a b ha hb h1 h2
    exact ⟨mod_neg_inj ha.2.1 hb.2.1 h2, mod_neg_inj ha.2.2 hb.2.2 h1⟩
  · intro a b h1 h2
    unfold mirrored
    simp only [h1, h2, and_self]
  · intro a b h; cases a <;> cases b <;> first | rfl | cases h
  · intro a b h; cases a <;> cases b <;> first | rfl | cases h
  · intro d n s e hs he
    rw [show id d = d from rfl]
    cases n
    · simp only [Device.legs, Device.eastLeg, Device.southLeg, Device.northLeg, Device.westLeg, mirrored, transposed, otherNoc,
        otherLink, List.map_append, List.map_map, flip_diff]
      congr 1
      · refine List.map_congr_left fun k _ => ?_
        simp only [Function.comp, Int.emod_sub_emod, LinkAttr.mk.injEq, Coord.mk.injEq, true_and, and_true]
        rw [← Int.zero_sub ((s.col + (k : Int)) % (dev.cols : Int)), Int.sub_emod_emod]
        congr 1; ring
      · refine List.map_congr_left fun k _ => ?_
        simp only [Function.comp, Int.emod_sub_emod, LinkAttr.mk.injEq, Coord.mk.injEq, true_and, and_true]
        rw [← Int.zero_sub ((s.row + (k : Int)) % (dev.rows : Int)), Int.sub_emod_emod]
        congr 1; ring
    · simp only [Device.legs, Device.eastLeg, Device.southLeg, Device.northLeg, Device.westLeg, mirrored, transposed, otherNoc,
        otherLink, List.map_append, List.map_map, flip_diff]
      congr 1
      · refine List.map_congr_left fun k _ => ?_
        simp only [Function.comp, Int.emod_add_emod, LinkAttr.mk.injEq, Coord.mk.injEq, true_and, and_true]
        rw [← Int.zero_sub ((s.row - (k : Int)) % (dev.rows : Int)), Int.sub_emod_emod]
        congr 1; ring
      · refine List.map_congr_left fun k _ => ?_
        simp only [Function.comp, Int.emod_add_emod, LinkAttr.mk.injEq, Coord.mk.injEq, true_and, and_true]
        rw [← Int.zero_sub ((s.col - (k : Int)) % (dev.cols : Int)), Int.sub_emod_emod]
        congr 1; ring

/-- Other numbers for the chips. -/
theorem turn_chips {dev : Device} {n : Nat} {chip : Int → Int} (h : Numbering dev.chips n chip) :
    Turn dev (withChips dev n) (onChips chip) chip id id := by
  refine ⟨?_, fun _ => rfl, ?_, ?_, ?_, Function.injective_id, Function.injective_id, ?_⟩
  · intro c hc
    exact ⟨h.1 _ hc.1, hc.2⟩
  · intro a b ha hb e
    exact h.2 _ _ ha.1 hb.1 e
  · intro a b _ _ h1 h2
    exact ⟨h1, h2⟩
  · intro a b h1 h2
    exact ⟨h1, h2⟩
  · intro d n s e _ _
    cases n <;> simp only [Device.legs, Device.eastLeg, Device.southLeg, Device.northLeg, Device.westLeg, onChips, withChips,
      id, List.map_append, List.map_map, Function.comp_def]

theorem groupDelay_chips {fp : FP} {dev : Device} {n : Nat} {chip : Int → Int} (h : Numbering dev.chips n chip)
    {t p : Transfer} (ht : IsCore dev t.src) (hp : IsCore dev p.src) :
    groupDelay fp (withChips dev n) (relocated (onChips chip) id t) (chip p.src.dev) = groupDelay fp dev t p.src.dev := by
  unfold groupDelay relocated
  have e : (chip t.src.dev ≠ chip p.src.dev) ↔ t.src.dev ≠ p.src.dev :=
    not_congr ⟨h.2 _ _ ht.1 hp.1, congrArg chip⟩
  cases hd : t.dst with
  | mcast gs => rfl
  | unicast d =>
    simp only [onChips, withChips, id, e]
    rfl

/-- The write latency of moved transfers. -/
theorem groupDelay_shift {fp : FP} {dev : Device} (hA : archDims dev.arch = (dev.rows, dev.cols))
    (dr dc : Int) {t : Transfer} (c : Int) :
    groupDelay fp dev (relocated (shiftBy dev.rows dev.cols dr dc) id t) c = groupDelay fp dev t c := by
  unfold groupDelay relocated
  cases hd : t.dst with
  | mcast gs => rfl
  | unicast d =>
    simp only [Out.bind_ok]
    cases ha : dev.arch with
    | blackhole => rfl
    | wormholeB0 =>
      rw [ha] at hA
      have h1 : dev.rows = 12 := (congrArg Prod.fst hA).symm
      have h2 : dev.cols = 10 := (congrArg Prod.snd hA).symm
      have key : ∀ n, writeLatency .wormholeB0 ((t.src.col + dc) % (10 : Nat)) ((t.src.row + dr) % (12 : Nat))
          ((d.col + dc) % (10 : Nat)) ((d.row + dr) % (12 : Nat)) (some n) =
          writeLatency .wormholeB0 t.src.col t.src.row d.col d.row (some n) := by
        intro n
        unfold writeLatency archHops archDims
        cases n <;> simp only [modulo_eq _ 10 (by decide), modulo_eq _ 12 (by decide), shift_diff]
      simp only [shiftBy, h1, h2, id, key]

/-! ### The way back on the other NoC -/

theorem reversed_leg {α : Type} (n : Nat) (f g : Nat → α) (h : ∀ k, k < n → f k = g (n - 1 - k)) :
    (List.range n).map f = ((List.range n).map g).reverse := by
  refine List.ext_getElem (by simp) fun k h1 h2 => ?_
  simp only [List.length_map, List.length_range] at h1
  simp only [List.getElem_map, List.getElem_range, List.getElem_reverse, List.length_map, List.length_range]
  exact h k h1

theorem legs_opposite (dev : Device) (d : Int) (n : Noc) (s e : Coord) (hr : 0 < dev.rows) (hc : 0 < dev.cols) :
    dev.legs d (otherNoc n) e s = ((dev.legs d n s e).map (opposite dev.rows dev.cols)).reverse := by
  have hr' : (dev.rows : Int) ≠ 0 := by omega
  have hc' : (dev.cols : Int) ≠ 0 := by omega
  -- position of a link, counted from the other end
  have up : ∀ (a b : Int) (m : Nat), (m : Int) ≠ 0 → ∀ k : Nat, k < ((a - b) % m).toNat →
      (a - k) % m = ((b + ((((a - b) % m).toNat - 1 - k : Nat) : Int)) % m + 1) % m := by
    intro a b m hm k hk
    have h1 := Int.emod_nonneg (a - b) hm
    have h2 : ((((a - b) % m).toNat - 1 - k : Nat) : Int) = (a - b) % m - 1 - k := by omega
    have h3 : a - b = m * ((a - b) / m) + (a - b) % m := (Int.mul_ediv_add_emod (a - b) m).symm
    rw [h2, Int.emod_add_emod, show a - (k : Int) = b + ((a - b) % m - 1 - k) + 1 + m * ((a - b) / m) by
      linear_combination h3, Int.add_mul_emod_self_left]
  have down : ∀ (a b : Int) (m : Nat), (m : Int) ≠ 0 → ∀ k : Nat, k < ((b - a) % m).toNat →
      (a + k) % m = ((b - ((((b - a) % m).toNat - 1 - k : Nat) : Int)) % m - 1) % m := by
    intro a b m hm k hk
    have h1 := Int.emod_nonneg (b - a) hm
    have h2 : ((((b - a) % m).toNat - 1 - k : Nat) : Int) = (b - a) % m - 1 - k := by omega
    have h3 : b - a = m * ((b - a) / m) + (b - a) % m := (Int.mul_ediv_add_emod (b - a) m).symm
    rw [h2, Int.emod_sub_emod, show b - ((b - a) % m - 1 - (k : Int)) - 1 = (a + k) + m * ((b - a) / m) by
      linear_combination h3, Int.add_mul_emod_self_left]
  cases n
  · simp only [otherNoc, Device.legs, Device.eastLeg, Device.southLeg, Device.northLeg, Device.westLeg, List.map_append,
      List.reverse_append, List.map_map]
    congr 1
    · refine reversed_leg _ _ _ fun k hk => ?_
      simp only [Function.comp, opposite, linkTarget, LinkAttr.mk.injEq, Coord.mk.injEq, true_and, and_true]
      exact up _ _ _ hr' k hk
    · refine reversed_leg _ _ _ fun k hk => ?_
      simp only [Function.comp, opposite, linkTarget, LinkAttr.mk.injEq, Coord.mk.injEq, true_and, and_true]
      exact up _ _ _ hc' k hk
  · simp only [otherNoc, Device.legs, Device.eastLeg, Device.southLeg, Device.northLeg, Device.westLeg, List.map_append,
      List.reverse_append, List.map_map]
    congr 1
    · refine reversed_leg _ _ _ fun k hk => ?_
      simp only [Function.comp, opposite, linkTarget, LinkAttr.mk.injEq, Coord.mk.injEq, true_and, and_true]
      exact down _ _ _ hc' k hk
    · refine reversed_leg _ _ _ fun k hk => ?_
      simp only [Function.comp, opposite, linkTarget, LinkAttr.mk.injEq, Coord.mk.injEq, true_and, and_true]
      exact down _ _ _ hr' k hk

end NPE
