import Verif.Props.Torus
import Verif.Props.Stats

/-
Property C131: the numbers of the chips, and chips without transfers, do not matter.
-/

namespace NPE.Props
open NPE NPE.Spec NPE.Spec.Fluid

theorem chips_same {dev : Device} {n : Nat} {chip : Int → Int} (h : Numbering dev.chips n chip) {fp : FP} {ho ho' : HashOrder}
    {wl wl' : Workload} {s0 s0' : Sim} (hdev : DeviceOk dev) (hdev' : DeviceOk (withChips dev n))
    (h0 : initSim fp dev ho wl = .ok s0) (h0' : initSim fp (withChips dev n) ho' wl' = .ok s0')
    (hw : ∀ t ∈ wl.transfers, Within dev t)
    (hS : wl'.transfers = wl.transfers.map (relocated (onChips chip) id)) : Alike fp dev (withChips dev n) s0 s0' :=
  (turn_chips h).alike hdev hdev' rfl rfl h0 h0' hw hS (fun _ _ _ _ => rfl)
    fun t ht _ p hp => groupDelay_chips h (hw t ht).1 (hw p hp).1

/-- C131, routes: the route on a chip does not depend on its number. -/
theorem C131_route (dev : Device) (hdev : DeviceOk dev) (n : Nat) (hdev' : DeviceOk (withChips dev n)) (chip : Int → Int)
    (hn : Numbering dev.chips n chip) (ord : List Int → List Int) (noc : Noc) (s e : Coord)
    (hs : IsCore dev s) (he : IsCore dev e) (hse : e.dev = s.dev) (ids : List Int) (ls : List LinkAttr)
    (h : dev.route ord noc s (.unicast e) = .ok ids) (hl : Denotes dev ids ls) :
    ∃ ids', (withChips dev n).route ord noc (onChips chip s) (.unicast (onChips chip e)) = .ok ids' ∧
      Denotes (withChips dev n) ids' (ls.map fun l => ⟨onChips chip l.coord, l.type⟩) := by
  have T := turn_chips hn
  refine ⟨_, (withChips dev n).route_unicast_eq hdev' ord noc _ _ (T.core s hs) (T.core e he) (congrArg chip hse), ?_⟩
  have hls : ls = dev.legs s.dev noc s e := by
    rw [dev.route_unicast_eq hdev ord noc s e hs he hse] at h
    rw [← Out.ok.inj h] at hl
    exact denotes_unique hl (dev.denotes_map _ (dev.legs_on _ _ _ _ hs.1 hs.2 he.2))
  have := T.legs s.dev noc s e hs he
  simp only [id] at this
  rw [show (onChips chip s).dev = chip s.dev from rfl, this, hls]
  refine (withChips dev n).denotes_map _ fun l hlm => ?_
  obtain ⟨a, ha, rfl⟩ := List.mem_map.mp hlm
  exact T.core _ (dev.legs_on _ _ _ _ hs.1 hs.2 he.2 a ha)

/-- C131 without congestion model, with any rounding. -/
theorem C131_alone (fp : FP) (dev : Device) (hdev : DeviceOk dev) (n : Nat) (hdev' : DeviceOk (withChips dev n))
    (chip : Int → Int) (hn : Numbering dev.chips n chip) (cpt : Nat) (hpos : 0 < cpt) (hcpt : cpt < 4244967296)
    (golden golden' : GoldenMap) (ho ho' : HashOrder) (hb : ∀ l, (ho.buckets l).Perm l) (hb' : ∀ l, (ho'.buckets l).Perm l)
    (wl wl' : Workload) (hw : ∀ t ∈ wl.transfers, Within dev t)
    (hS : wl'.transfers = wl.transfers.map (relocated (onChips chip) id))
    (e : Ending) (s' : Sim) (c' : Nat)
    (h : runLoop (simConfig fp dev cpt golden false) ho wl = .ok e)
    (h' : runLoop (simConfig fp (withChips dev n) cpt golden' false) ho' wl' = .ok (.finished s' c')) :
    ∃ s, e = .finished s c' ∧ s.ts.map (fun t => (t.start, t.endc)) = s'.ts.map (fun t => (t.start, t.endc)) := by
  obtain ⟨s0, h0, _⟩ := Out.bind_eq_ok.mp h
  obtain ⟨s0', h0', _⟩ := Out.bind_eq_ok.mp h'
  exact alike_alone hpos hcpt h0 h0' hb hb' (chips_same hn hdev hdev' h0 h0' hw hS) h h'

/-- C131 with congestion model, with any rounding. -/
theorem C131_shared (fp : FP) (dev : Device) (hdev : DeviceOk dev) (hT : TableOk fp dev.tbt) (n : Nat)
    (hdev' : DeviceOk (withChips dev n))
    (chip : Int → Int) (hn : Numbering dev.chips n chip) (cpt : Nat) (hpos : 0 < cpt) (hcpt : cpt < 4244967296)
    (golden golden' : GoldenMap) (ho ho' : HashOrder) (hb : ∀ l, (ho.buckets l).Perm l) (hb' : ∀ l, (ho'.buckets l).Perm l)
    (wl wl' : Workload) (hw : ∀ t ∈ wl.transfers, 0 ≤ t.injectionRate ∧ Within dev t)
    (hS : wl'.transfers = wl.transfers.map (relocated (onChips chip) id))
    (e : Ending) (s' : Sim) (c' : Nat)
    (h : runLoop (simConfig fp dev cpt golden true) ho wl = .ok e)
    (h' : runLoop (simConfig fp (withChips dev n) cpt golden' true) ho' wl' = .ok (.finished s' c')) :
    ∃ s, e = .finished s c' ∧ s.ts.map (fun t => (t.start, t.endc)) = s'.ts.map (fun t => (t.start, t.endc)) := by
  obtain ⟨s0, h0, _⟩ := Out.bind_eq_ok.mp h
  obtain ⟨s0', h0', _⟩ := Out.bind_eq_ok.mp h'
  exact alike_rounded hdev hT hdev' hT rfl rfl (fun t ht => ⟨(hw t ht).1, within_rects (hw t ht).2⟩)
    (relocated_rates hw hS) hpos hcpt h0 h0' hb hb'
    (chips_same hn hdev hdev' h0 h0' (fun t ht => (hw t ht).2) hS) h h'

/-- The parameters of the transfers at the end are those at the start. -/
theorem final_params {fp : FP} {dev : Device} {cpt : Nat} {golden : GoldenMap} {congestion : Bool} {ho : HashOrder}
    {wl : Workload} {s0 s : Sim} {c : Nat} (h0 : initSim fp dev ho wl = .ok s0)
    (h : runLoop (simConfig fp dev cpt golden congestion) ho wl = .ok (.finished s c)) :
    s.ts.map (·.params) = s0.ts.map (·.params) := by
  obtain ⟨x0, y0, hr⟩ := Out.bind_eq_ok.mp h
  have y1 : initSim fp dev ho wl = .ok x0 := y0
  rw [h0] at y1
  rw [← Out.ok.inj y1] at hr
  have R : Reach (simConfig fp dev cpt golden congestion) s0 c s := by
    rcases simLoop_reach (cfg := simConfig fp dev cpt golden congestion) (s0 := s0) simFuel 0 s0 _ .start (Or.inl rfl)
      (by rw [Nat.zero_add]; exact hr) with ⟨s', c', he, hs, h1, h2, h3⟩ | ⟨s', c', he, hs, h1, h2⟩
    · obtain ⟨rfl, rfl⟩ := Ending.finished.inj he
      exact hs
    · cases he
  have := congrArg (List.map Prod.fst) (R.stat (computeRates_ok fp dev congestion) (init_inv h0))
  rw [List.map_map, List.map_map] at this
  exact this

theorem chips_final {fp : FP} {dev : Device} {n : Nat} {chip : Int → Int} {cpt : Nat} {golden golden' : GoldenMap}
    {congestion : Bool} {ho ho' : HashOrder} {wl wl' : Workload} {s s' : Sim} {c c' : Nat}
    (hS : wl'.transfers = wl.transfers.map (relocated (onChips chip) id))
    (h : runLoop (simConfig fp dev cpt golden congestion) ho wl = .ok (.finished s c))
    (h' : runLoop (simConfig fp (withChips dev n) cpt golden' congestion) ho' wl' = .ok (.finished s' c'))
    {i : Nat} {t t' : TState} (ht : s.ts[i]? = some t) (ht' : s'.ts[i]? = some t') :
    t.params ∈ wl.transfers ∧ t'.params = relocated (onChips chip) id t.params := by
  obtain ⟨s0, h0, _⟩ := Out.bind_eq_ok.mp h
  obtain ⟨s0', h0', _⟩ := Out.bind_eq_ok.mp h'
  have e := congrArg (·[i]?) (final_params h0 h)
  have e' := congrArg (·[i]?) (final_params h0' h')
  simp only [List.getElem?_map, ht, ht', Option.map_some] at e e'
  obtain ⟨u, hu, eu⟩ := Option.map_eq_some_iff.mp e.symm
  obtain ⟨u', hu', eu'⟩ := Option.map_eq_some_iff.mp e'.symm
  have m := ((initSim_ok h0).1.slots i u hu).1
  have m' := ((initSim_ok h0').1.slots i u' hu').1
  have d := slot_id h0 hu
  have d' := slot_id h0' hu'
  rw [← eu, ← eu']
  refine ⟨m, ?_⟩
  rw [hS] at m'
  obtain ⟨v, hv, ev⟩ := List.mem_map.mp m'
  have : v = u.params := ids_unique h0 v hv _ m (by
    have : v.id = u'.params.id := by rw [← ev]; rfl
    rw [this, d, d'])
  rw [← ev, this]

/-- C131, estimates: a chip and the chip that takes its place have the same estimate, and so has the whole board. -/
theorem C131_estimates (fp : FP) (dev : Device) (hdev : DeviceOk dev) (hT : TableOk fp dev.tbt) (n : Nat)
    (hdev' : DeviceOk (withChips dev n))
    (chip : Int → Int) (hn : Numbering dev.chips n chip) (cpt : Nat) (hpos : 0 < cpt) (hcpt : cpt < 4244967296)
    (congestion : Bool)
    (ho ho' : HashOrder) (hb : ∀ l, (ho.buckets l).Perm l) (hb' : ∀ l, (ho'.buckets l).Perm l)
    (wl wl' : Workload) (hw : ∀ t ∈ wl.transfers, 0 ≤ t.injectionRate ∧ Within dev t)
    (hS : wl'.transfers = wl.transfers.map (relocated (onChips chip) id))
    (s s' : Sim) (st st' : Stats)
    (h : runSingle fp dev ho cpt congestion wl = .ok (.inl (s, st)))
    (h' : runSingle fp (withChips dev n) ho' cpt congestion wl' = .ok (.inl (s', st')))
    (d d' : Int) (hd : (0 ≤ d ∧ d < dev.chips ∧ d' = chip d) ∨ (d = -1 ∧ d' = -1))
    (hg : wl'.golden.at d' = wl.golden.at d) (ds ds' : DevStats) (hm : (d, ds) ∈ st) (hm' : (d', ds') ∈ st') :
    ds'.estimated = ds.estimated := by
  obtain ⟨c, hl⟩ : ∃ c, runLoop (simConfig fp dev cpt wl.golden congestion) ho wl = .ok (.finished s c) := by
    obtain ⟨_, c, _, h6, _⟩ := runSingle_ok h
    exact ⟨c, h6⟩
  obtain ⟨c', hl'⟩ : ∃ c, runLoop (simConfig fp (withChips dev n) cpt wl'.golden congestion) ho' wl' = .ok (.finished s' c) := by
    obtain ⟨_, c, _, h6, _⟩ := runSingle_ok h'
    exact ⟨c, h6⟩
  have times : s.ts.map (fun t => (t.start, t.endc)) = s'.ts.map (fun t => (t.start, t.endc)) := by
    cases congestion with
    | false =>
      obtain ⟨s2, e, r⟩ := C131_alone fp dev hdev n hdev' chip hn cpt hpos hcpt wl.golden wl'.golden ho ho' hb hb' wl wl'
        (fun t ht => (hw t ht).2) hS _ s' c' hl hl'
      obtain ⟨rfl, _⟩ := Ending.finished.inj e
      exact r
    | true =>
      obtain ⟨s2, e, r⟩ := C131_shared fp dev hdev hT n hdev' chip hn cpt hpos hcpt wl.golden wl'.golden ho ho' hb hb' wl wl'
        hw hS _ s' c' hl hl'
      obtain ⟨rfl, _⟩ := Ending.finished.inj e
      exact r
  have hlen : s.ts.length = s'.ts.length := by
    have := congrArg List.length times
    rw [List.length_map, List.length_map] at this
    exact this
  have pair : ∀ (i : Nat) (t t' : TState), s.ts[i]? = some t → s'.ts[i]? = some t' → t'.endc = t.endc ∧
      ∀ g, Relevant d' g t'.params ↔ Relevant d g t.params := by
    intro i t t' ht ht'
    have e := congrArg (·[i]?) times
    simp only [List.getElem?_map, ht, ht', Option.map_some, Option.some.injEq, Prod.mk.injEq] at e
    obtain ⟨m, hp⟩ := chips_final hS hl hl' ht ht'
    refine ⟨e.2.symm, fun g => ?_⟩
    rw [hp]
    unfold Relevant relocated onChips
    simp only
    have hc := (hw _ m).2.1.1
    rcases hd with ⟨d1, d2, rfl⟩ | ⟨rfl, rfl⟩
    · have h1 : (chip d = -1 ∨ chip t.params.src.dev = chip d) ↔ (d = -1 ∨ t.params.src.dev = d) := by
        have := (hn.1 d ⟨d1, d2⟩).1
        constructor
        · rintro (x | x)
          · omega
          · exact Or.inr (hn.2 _ _ hc ⟨d1, d2⟩ x)
        · rintro (x | x)
          · omega
          · exact Or.inr (congrArg chip x)
      rw [h1]
    · simp only [true_or]
  have on : OnChips dev wl.transfers := fun t ht => (hw t ht).2.1.1
  have on' : OnChips (withChips dev n) wl'.transfers := by
    intro t ht
    rw [hS] at ht
    obtain ⟨u, hu, rfl⟩ := List.mem_map.mp ht
    exact hn.1 _ (hw u hu).2.1.1
  obtain ⟨gs, ge, m, e1, e2, _, e3, e4, _⟩ := C35_estimated fp dev hdev cpt hpos congestion ho wl on s st h d ds hm
  obtain ⟨gs', ge', m', f1, f2, _, f3, f4, _⟩ :=
    C35_estimated fp (withChips dev n) hdev' cpt hpos congestion ho' wl' on' s' st' h' d' ds' hm'
  rw [hg, e1] at f1
  obtain ⟨rfl, rfl⟩ := Prod.mk.inj (Out.ok.inj f1)
  have le1 : m ≤ m' := by
    rcases e2.2 with e | ⟨t, ht, hr, rfl⟩
    · omega
    · obtain ⟨i, hi⟩ := List.mem_iff_getElem?.mp ht
      have hi' : s'.ts[i]? = some (s'.ts[i]'(by rw [← hlen]; exact (List.getElem?_eq_some_iff.mp hi).1)) :=
        List.getElem?_eq_getElem _
      obtain ⟨p1, p2⟩ := pair i _ _ hi hi'
      rw [← p1]
      exact f2.1 _ (List.mem_of_getElem? hi') ((p2 _).mpr hr)
  have le2 : m' ≤ m := by
    rcases f2.2 with e | ⟨t, ht, hr, rfl⟩
    · omega
    · obtain ⟨i, hi⟩ := List.mem_iff_getElem?.mp ht
      have hi' : s.ts[i]? = some (s.ts[i]'(by rw [hlen]; exact (List.getElem?_eq_some_iff.mp hi).1)) :=
        List.getElem?_eq_getElem _
      obtain ⟨p1, p2⟩ := pair i _ _ hi' hi
      rw [p1]
      exact e2.1 _ (List.mem_of_getElem? hi') ((p2 _).mp hr)
  rcases le_total gs m with a | a
  · have := e3 a; have := f3 (by omega); omega
  · have := e4 a; have := f4 (by omega); omega

/-- A board of two chips of four by four cores, and transfers on both chips. -/
def board : Device := { grid4 with chips := 2, multichip := true }
def twoSegments : List Transfer :=
  [{ Transfer.make 8192 2 ⟨0, 0, 1⟩ (.unicast ⟨0, 2, 3⟩) 28 0 .noc0 with groupId := 1, groupIdx := 0 },
   Transfer.make 4096 1 ⟨0, 0, 2⟩ (.unicast ⟨0, 2, 3⟩) 28 10 .noc0,
   { Transfer.make 2048 1 ⟨1, 2, 3⟩ (.unicast ⟨1, 0, 1⟩) 28 10 .noc1 with groupId := 1, groupIdx := 1, groupParent := 0 }]

/-- With the two chips exchanged, everything takes the same time, including the way to the other chip. -/
example : times board ⟨id, id⟩ twoSegments true = some (1792, [(0, 774), (10, 297), (1670, 1744)]) ∧
    times board ⟨id, id⟩ (twoSegments.map (relocated (onChips fun d => 1 - d) id)) true =
      some (1792, [(0, 774), (10, 297), (1670, 1744)]) := by decide +kernel

example : Numbering 2 2 (fun d => 1 - d) ∧ Numbering 2 8 (fun d => 3 * d + 1) :=
  ⟨⟨fun d h => by push_cast at h ⊢; omega, fun a b _ _ h => by simp only at h; omega⟩,
   fun d h => by push_cast at h ⊢; omega, fun a b _ _ h => by simp only at h; omega⟩

/-- The chips must be different: with both segments on one chip, the second one does not wait for the ethernet. -/
example : times board ⟨id, id⟩ (twoSegments.map (relocated (onChips fun _ => 0) id)) true =
    some (1024, [(0, 774), (10, 297), (854, 970)]) := by decide +kernel

/-- The boards that can be created differ in the number of chips only. -/
theorem C131_devices (fp : FP) (name name' : String) (dev dev' : Device) (h : createDeviceModel fp name = .ok dev)
    (h' : createDeviceModel fp name' = .ok dev') (hm : dev.multichip = true) (hm' : dev'.multichip = true) :
    dev' = withChips dev dev'.chips := by
  unfold createDeviceModel at h h'
  split_ifs at h <;> split_ifs at h' <;> cases h <;> cases h' <;> first | rfl | exact absurd (show false = true from hm) Bool.false_ne_true |
    exact absurd (show false = true from hm') Bool.false_ne_true

end NPE.Props
