import Verif.Proofs.TimelineRun
import Verif.Props.Stats
import Verif.Proofs.Preprocess

/-
Properties C44, C45, C46: the timeline files.
-/

namespace NPE.Props
open Spec

/-! ### C44: split files -/

/-- C44, indices.  With more timesteps than the (positive) threshold, the split regions are a chain of
non-empty index intervals from 0 to the number of timesteps, none longer than the threshold, and each
region carries the cycles at which its first timestep starts and its last one ends. -/
theorem C44_regions (steps : List TimestepStats) (threshold : Nat) (ht : 0 < threshold)
    (hn : threshold < steps.length) :
    ∃ rs, splitRegions steps threshold = .ok rs ∧
      Chain 0 steps.length (rs.map fun r => (r.startIdx, r.endIdx)) ∧
      ∀ r ∈ rs, r.endIdx - r.startIdx ≤ threshold ∧
        (∃ a, steps[r.startIdx]? = some a ∧ a.startc = r.startCycle) ∧
        (∃ b, steps[r.endIdx - 1]? = some b ∧ b.endc = r.endCycle) := by
  obtain ⟨hk1, hk2⟩ := blocks_count (n := steps.length) ht
  set k := (steps.length + threshold - 1) / threshold with hk
  have hlt : ∀ i ∈ List.range k, i * threshold < steps.length := by
    intro i hi
    rw [List.mem_range] at hi
    have h1 : (i + 1) * threshold ≤ k * threshold := Nat.mul_le_mul_right _ hi
    have h2 : (i + 1) * threshold = i * threshold + threshold := by ring
    omega
  obtain ⟨rs, hrs⟩ := Out.mapM_total (f := splitRegion steps threshold) (l := List.range k) (fun i hi => by
    obtain ⟨a, b, _, _, h⟩ := splitRegion_ok (hlt i hi)
    exact ⟨_, h⟩)
  have hf := Out.mapM_eq_ok.mp hrs
  refine ⟨rs, ?_, ?_, ?_⟩
  · unfold splitRegions
    rw [if_pos hn, if_neg (by omega)]
    exact hrs
  · have hmap : ∀ (l : List Nat) (rs : List Region), (∀ i ∈ l, i * threshold < steps.length) →
        List.Forall₂ (fun i r => splitRegion steps threshold i = .ok r) l rs →
        rs.map (fun r => (r.startIdx, r.endIdx)) =
          l.map fun (i : Nat) => (i * threshold, min ((i + 1) * threshold) steps.length) := by
      intro l rs hl h
      induction h with
      | nil => rfl
      | @cons i r l rs h1 _ ih =>
        rw [List.map_cons, List.map_cons, ih fun j hj => hl j (by simp [hj])]
        obtain ⟨a, b, _, _, h⟩ := splitRegion_ok (hl i (by simp))
        rw [h] at h1
        rw [← Out.ok.inj h1]
    rw [hmap _ _ hlt hf]
    have := chain_blocks (n := steps.length) ht k hk1
    rwa [min_eq_right hk2] at this
  · intro r hr
    obtain ⟨i, hi, h1⟩ := forall₂_exists_of_mem_right hf hr
    obtain ⟨a, b, ha, hb, h⟩ := splitRegion_ok (hlt i hi)
    rw [h] at h1
    rw [← Out.ok.inj h1]
    have h2 : (i + 1) * threshold = i * threshold + threshold := by ring
    exact ⟨by simp only; omega, ⟨a, ha, rfl⟩, ⟨b, hb, rfl⟩⟩

/-- C44.  Consequently every timestep index lies in exactly one region. -/
theorem C44_cover (steps : List TimestepStats) (threshold : Nat) (rs : List Region) (ht : 0 < threshold)
    (hn : threshold < steps.length) (h : splitRegions steps threshold = .ok rs) (i : Nat)
    (hi : i < steps.length) : (rs.filter fun r => decide (r.startIdx ≤ i ∧ i < r.endIdx)).length = 1 := by
  obtain ⟨rs', h', hc, _⟩ := C44_regions steps threshold ht hn
  rw [h] at h'
  rw [← Out.ok.inj h'] at hc
  have key : ∀ (l : List (Nat × Nat)) (a b : Nat), Chain a b l → a ≤ b ∧
      (l.filter fun p => decide (p.1 ≤ i ∧ i < p.2)).length = if a ≤ i ∧ i < b then 1 else 0 := by
    intro l a b hc
    induction hc with
    | nil => simp
    | @cons a b c l hab _ ih =>
      obtain ⟨h1, h2⟩ := ih
      refine ⟨by omega, ?_⟩
      rw [List.filter_cons]
      by_cases hin : a ≤ i ∧ i < b
      · rw [if_pos (by simpa using hin), List.length_cons, h2, if_neg (by omega), if_pos (by omega)]
      · rw [if_neg (by simpa using hin), h2]
        by_cases hin2 : b ≤ i ∧ i < c
        · rw [if_pos hin2, if_pos (by omega)]
        · rw [if_neg hin2, if_neg (by omega)]
  have := (key _ _ _ hc).2
  rw [if_pos ⟨Nat.zero_le _, hi⟩, List.filter_map, List.length_map] at this
  exact this

/-- Without more timesteps than the threshold there are no split files. -/
theorem C44_no_split (steps : List TimestepStats) (threshold : Nat) (hn : steps.length ≤ threshold) :
    splitRegions steps threshold = .ok [] := by
  unfold splitRegions
  rw [if_neg (by omega)]

/-- A threshold of zero is accepted by the configuration and divides by zero. -/
theorem C44_violated_zero (r : TimestepStats) (l : List TimestepStats) : splitRegions (r :: l) 0 = .ub := by
  simp [splitRegions]

/-- The full claim about the contents of a split file: it has exactly the timesteps of its index range. -/
def C44_claim (fp : FP) (dev : Device) (ord : List (Int × List Int) → List (Int × List Int)) (wl : Workload)
    (ts : List TState) (steps : List TimestepStats) (threshold : Nat) : Prop :=
  ∀ rs, splitRegions steps threshold = .ok rs → ∀ r ∈ rs, ∀ tl,
    serializeV1 fp dev ord wl ts steps (some r) = .ok tl →
    tl.timesteps.map (fun e => (e.startc, e.endc)) =
      ((steps.drop r.startIdx).take (r.endIdx - r.startIdx)).map fun e => (e.startc, e.endc)

theorem emitTimestep_cycles {fp : FP} {dev : Device} {gs : Groups} {r : TimestepStats} {e : TimestepEntry}
    (h : emitTimestep fp dev gs r = .ok e) : e.startc = r.startc ∧ e.endc = r.endc ∧
      e.active = uniquify (r.live.map fun (id : Nat) => (gs.groupOf.lookup (id : Int)).getD 0) := by
  unfold emitTimestep at h
  obtain ⟨_, _, h⟩ := Out.bind_eq_ok.mp h
  obtain ⟨_, _, h⟩ := Out.bind_eq_ok.mp h
  rw [← Out.ok.inj h]
  exact ⟨rfl, rfl, rfl⟩

theorem serialize_steps {fp : FP} {dev : Device} {ord : List (Int × List Int) → List (Int × List Int)}
    {wl : Workload} {ts : List TState} {steps : List TimestepStats} {region : Option Region} {tl : Timeline}
    (h : serializeV1 fp dev ord wl ts steps region = .ok tl) :
    List.Forall₂ (fun r e => emitTimestep fp dev (timelineGroups wl ts) r = .ok e)
      (steps.filter (listedStep region)) tl.timesteps := by
  unfold serializeV1 at h
  obtain ⟨_, _, h⟩ := Out.bind_eq_ok.mp h
  obtain ⟨_, _, h⟩ := Out.bind_eq_ok.mp h
  obtain ⟨es, hes, h⟩ := Out.bind_eq_ok.mp h
  rw [← Out.ok.inj h]
  exact Out.mapM_eq_ok.mp hes

/-- C44, contents (missing: runs whose last record is an invented empty one, see `C44_violated`).  If
the records are contiguous, each split file has exactly the timesteps of its index range. -/
theorem C44_contents_partial (fp : FP) (dev : Device)
    (ord : List (Int × List Int) → List (Int × List Int)) (wl : Workload) (ts : List TState)
    (steps : List TimestepStats) (threshold : Nat) (hc : Contiguous steps) :
    C44_claim fp dev ord wl ts steps threshold := by
  intro rs hrs r hr tl htl
  have hpos : 0 < threshold ∧ threshold < steps.length := by
    unfold splitRegions at hrs
    split at hrs
    · split at hrs
      · simp at hrs
      · omega
    · rw [← Out.ok.inj hrs] at hr
      simp at hr
  obtain ⟨rs', hrs', hch, hreg⟩ := C44_regions steps threshold hpos.1 hpos.2
  rw [hrs] at hrs'
  rw [← Out.ok.inj hrs'] at hch hreg
  obtain ⟨_, ⟨a, ha, ea⟩, b, hb, eb⟩ := hreg r hr
  have hlt : r.startIdx < r.endIdx := by
    have : ∀ (l : List (Nat × Nat)) (x y : Nat), Chain x y l → ∀ p ∈ l, p.1 < p.2 := by
      intro l x y h
      induction h with
      | nil => simp
      | cons hab _ ih =>
        intro p hp
        rcases List.mem_cons.mp hp with rfl | hp
        · exact hab
        · exact ih p hp
    exact this _ _ _ hch _ (List.mem_map.mpr ⟨r, hr, rfl⟩)
  have hw := contiguous_window hc hlt ha hb
  have er : (⟨r.startIdx, r.endIdx, a.startc, b.endc⟩ : Region) = r := by rw [ea, eb]
  rw [er] at hw
  have hf := serialize_steps htl
  rw [hw] at hf
  have : ∀ (l : List TimestepStats) (es : List TimestepEntry),
      List.Forall₂ (fun r e => emitTimestep fp dev (timelineGroups wl ts) r = .ok e) l es →
      es.map (fun e => (e.startc, e.endc)) = l.map fun e => (e.startc, e.endc) := by
    intro l es h
    induction h with
    | nil => rfl
    | cons h1 _ ih =>
      obtain ⟨e1, e2, _⟩ := emitTimestep_cycles h1
      rw [List.map_cons, List.map_cons, ih, e1, e2]
  exact this _ _ hf

/-- What is visible of a split file: region, timesteps and listed transfers. -/
structure SplitView where
  region : Nat × Nat
  steps : List (Nat × Nat)
  transfers : List Int
  deriving DecidableEq

/-- What a run of the sample device writes: timesteps of the full file, then the split files. -/
def sampleTimeline (threshold : Nat) (ts : List Transfer) : Option (List (Nat × Nat) × List SplitView) :=
  match runSingle .exact Sample.dev ⟨id, id⟩ 128 false (windowed 0 ts) with
  | .ok (.inl (s, st)) =>
    match emitTimeline .exact Sample.dev id threshold (windowed 0 ts) s.ts st with
    | .ok (full, splits) => some (full.timesteps.map fun e => (e.startc, e.endc),
        splits.map fun p => ⟨(p.1.startCycle, p.1.endCycle), p.2.timesteps.map fun e => (e.startc, e.endc),
          p.2.transfers.map (·.id)⟩)
    | _ => none
  | _ => none

/-- C44 is violated: a run from cycle 0 ends with an invented record (0, 0) (see `C43_violated`).  The
last region then ends at cycle 0, and the timestep from 256 to 384 is in none of the split files; the
invented record is repeated in the first file. -/
theorem C44_violated : sampleTimeline 2 [Sample.tr 300 0] = some (
    [(0, 128), (128, 256), (256, 384), (0, 0)],
    [⟨(0, 256), [(0, 128), (128, 256), (0, 0)], [0]⟩, ⟨(256, 0), [], []⟩]) := by decide +kernel

/-- Contiguous records: the split files have them all. -/
example : C44_claim .exact Sample.dev id {} []
    [{ startc := 128, endc := 256 }, { startc := 256, endc := 384 }, { startc := 384, endc := 512 }] 2 :=
  C44_contents_partial _ _ _ _ _ _ _ ⟨by decide, by
    intro k r r' h h'
    match k with
    | 0 => simp at h h'; rw [← h, ← h']
    | 1 => simp at h h'; rw [← h, ← h']
    | k + 2 => simp at h'⟩

example : splitRegions
    [{ startc := 128, endc := 256 }, { startc := 256, endc := 384 }, { startc := 384, endc := 512 }] 2 =
    .ok [⟨0, 2, 128, 384⟩, ⟨2, 3, 384, 512⟩] := by decide +kernel

/-! ### C45: transfers of a split file -/

/-- The full claim: a transfer is listed exactly if it is active during the region. -/
def C45_claim (r : Region) (s e : Nat) : Prop :=
  r.partially s e = true ↔ Intersect s e r.startCycle r.endCycle

/-- C45 (missing: transfers that begin before and end after the region, which are not listed).  For
every non-empty region and every transfer of positive duration: it is listed exactly if it is active
during the region and does not span it on both sides. -/
theorem C45_partial (r : Region) (s e : Nat) (hse : s < e) (hr : r.startCycle < r.endCycle) :
    r.partially s e = true ↔ Intersect s e r.startCycle r.endCycle ∧
      ¬ (s < r.startCycle ∧ r.endCycle < e) := by
  simp only [Region.partially, Bool.or_eq_true, Bool.and_eq_true, decide_eq_true_eq, Intersect]
  constructor
  · rintro (⟨h1, h2⟩ | ⟨h1, h2⟩)
    · exact ⟨⟨s, le_refl _, hse, h1, h2⟩, by omega⟩
    · exact ⟨⟨max s r.startCycle, by omega, by omega, by omega, by omega⟩, by omega⟩
  · rintro ⟨⟨c, h1, h2, h3, h4⟩, h5⟩
    omega

/-- Without spanning, the full claim holds. -/
theorem C45_no_span (r : Region) (s e : Nat) (hse : s < e) (hr : r.startCycle < r.endCycle)
    (hspan : ¬ (s < r.startCycle ∧ r.endCycle < e)) : C45_claim r s e := by
  unfold C45_claim
  rw [C45_partial r s e hse hr]
  exact ⟨fun h => h.1, fun h => ⟨h, hspan⟩⟩

/-- The claim fails for every region and every transfer that spans it. -/
theorem C45_violated_spanning (r : Region) (s e : Nat) (h1 : s < r.startCycle) (h2 : r.startCycle < r.endCycle)
    (h3 : r.endCycle < e) : ¬ C45_claim r s e := by
  unfold C45_claim
  rw [C45_partial r s e (by omega) h2]
  intro h
  exact (h.mpr ⟨r.startCycle, by omega, by omega, le_refl _, h2⟩).2 ⟨h1, h3⟩

/-- C45 is violated in a run: transfer 0 is active from 0 to 700, but the file for cycles 256 to 512 does
not list it (its timesteps name it as active nevertheless). -/
theorem C45_violated : sampleTimeline 2 [Sample.tr 700 0] = some (
    [(0, 128), (128, 256), (256, 384), (384, 512), (512, 640), (640, 768), (0, 0)],
    [⟨(0, 256), [(0, 128), (128, 256), (0, 0)], [0]⟩, ⟨(256, 512), [(256, 384), (384, 512)], []⟩,
      ⟨(512, 768), [(512, 640), (640, 768)], [0]⟩, ⟨(0, 0), [(0, 0)], []⟩]) := by decide +kernel

example : C45_claim ⟨0, 2, 256, 512⟩ 100 300 := C45_no_span _ _ _ (by decide) (by decide) (by decide)

/-! ### C46: logical transfers -/

/-- What an entry of the timeline says about the transfers `p.2` that are listed under the name `p.1`. -/
structure Describes (p : Int × List TState) (lt : LogicalTransfer) : Prop where
  id : lt.id = p.1
  ends : ∃ first last, p.2.head? = some first ∧ p.2.getLast? = some last ∧ lt.src = first.params.src ∧
    lt.startc = first.start ∧ lt.totalBytes = first.params.totalBytes ∧ lt.endc = last.endc ∧
    lt.zones = first.params.zonePath ∧ lt.eventType = first.params.eventType
  segments : List.Forall₂ (fun (t : TState) (s : Segment) => s.src = t.params.src ∧ s.noc = t.params.noc ∧
    s.injectionRate = t.params.injectionRate ∧ s.startc = t.start ∧ s.endc = t.endc) p.2 lt.route

/-- The full claim: the consistency checks succeed if the groups are registered, and the entries of every
timeline that is written are a division of the transfers. -/
def C46_claim (fp : FP) (dev : Device) (ord : List (Int × List Int) → List (Int × List Int)) (wl : Workload)
    (ts : List TState) (steps : List TimestepStats) : Prop :=
  (Registered wl.numTransferGroups ts → checkGroups wl (timelineGroups wl ts) = .ok ()) ∧
    ∀ tl, serializeV1 fp dev ord wl ts steps none = .ok tl →
      ∃ parts, Division ts parts ∧ List.Forall₂ Describes parts tl.transfers

theorem serialize_groups {fp : FP} {dev : Device} {ord : List (Int × List Int) → List (Int × List Int)}
    {wl : Workload} {ts : List TState} {steps : List TimestepStats} {region : Option Region} {tl : Timeline}
    (h : serializeV1 fp dev ord wl ts steps region = .ok tl) :
    checkGroups wl (timelineGroups wl ts) = .ok () ∧
    ∃ outs, List.Forall₂ (fun e out => emitGroup dev ts region e = .ok out)
      (ord (timelineGroups wl ts).members) outs ∧ tl.transfers = outs.flatten := by
  unfold serializeV1 at h
  obtain ⟨_, hc, h⟩ := Out.bind_eq_ok.mp h
  obtain ⟨outs, houts, h⟩ := Out.bind_eq_ok.mp h
  obtain ⟨es, hes, h⟩ := Out.bind_eq_ok.mp h
  rw [← Out.ok.inj h]
  exact ⟨hc, outs, Out.mapM_eq_ok.mp houts, rfl⟩

theorem describes_all {dev : Device} {wl : Workload} {ts : List TState} (hids : IdsArePositions ts)
    {es : List (Int × List Int)} {outs : List (List LogicalTransfer)}
    (hsub : ∀ e ∈ es, e ∈ (timelineGroups wl ts).members)
    (h : List.Forall₂ (fun e out => emitGroup dev ts none e = .ok out) es outs) :
    List.Forall₂ Describes (es.map (partOf wl.numTransferGroups ts)) outs.flatten := by
  induction h with
  | nil => exact List.Forall₂.nil
  | @cons e out es outs h1 _ ih =>
    obtain ⟨first, last, hf, hl, ⟨hfalse, _⟩ | ⟨_, dst, route, _, hroute, eout⟩⟩ :=
      emitGroup_ok hids (hsub e (by simp)) h1
    · simp [listed] at hfalse
    · rw [eout, List.map_cons, List.flatten_cons, List.singleton_append]
      refine List.Forall₂.cons ?_ (ih fun x hx => hsub x (by simp [hx]))
      refine ⟨rfl, ⟨first, last, hf, hl, rfl, rfl, rfl, rfl, rfl, rfl⟩, ?_⟩
      refine hroute.imp ?_
      intro t sg hsg
      obtain ⟨_, _, _, _, rfl⟩ := segmentOf_ok hsg
      exact ⟨rfl, rfl, rfl, rfl, rfl⟩

/-- C46.  For every workload and every iteration order of the hash map: the consistency checks succeed if
the groups are registered, and whenever a timeline is written, its entries divide the transfers: each
transfer is in exactly one entry, grouped ones under the name of their group in order of their index,
others alone. -/
theorem C46_document (fp : FP) (dev : Device) (ord : List (Int × List Int) → List (Int × List Int))
    (hord : ∀ l, (ord l).Perm l) (wl : Workload) (ts : List TState) (steps : List TimestepStats)
    (hids : IdsArePositions ts) : C46_claim fp dev ord wl ts steps := by
  refine ⟨fun hreg => checkGroups_ok hids hreg, ?_⟩
  intro tl htl
  obtain ⟨hc, outs, hf, et⟩ := serialize_groups htl
  refine ⟨(ord (timelineGroups wl ts).members).map (partOf wl.numTransferGroups ts),
    parts_division hids hc (hord _), ?_⟩
  rw [et]
  exact describes_all hids (fun e he => (hord _).mem_iff.mp he) hf

/-- C46, timesteps.  The active transfers of a timestep are listed in increasing order without
repetition, and they are exactly the names of the transfers that were live. -/
theorem C46_active (fp : FP) (dev : Device) (ord : List (Int × List Int) → List (Int × List Int))
    (hord : ∀ l, (ord l).Perm l) (wl : Workload) (ts : List TState) (steps : List TimestepStats)
    (hids : IdsArePositions ts)
    (hlive : ∀ r ∈ steps, ∀ id ∈ r.live, id < ts.length) (tl : Timeline)
    (htl : serializeV1 fp dev ord wl ts steps none = .ok tl) :
    ∃ parts, Division ts parts ∧ List.Forall₂ Describes parts tl.transfers ∧
      List.Forall₂ (fun (r : TimestepStats) (e : TimestepEntry) => e.startc = r.startc ∧ e.endc = r.endc ∧
        e.active.Pairwise (· < ·) ∧
        ∀ g, g ∈ e.active ↔ ∃ id ∈ r.live, ∃ t, ts[id]? = some t ∧ ∃ p ∈ parts, p.1 = g ∧ t ∈ p.2)
        steps tl.timesteps := by
  have hg := timelineGroups_ok (wl := wl) hids
  obtain ⟨hc, outs, hf, et⟩ := serialize_groups htl
  have hdiv := parts_division hids hc (hord (timelineGroups wl ts).members)
  refine ⟨(ord (timelineGroups wl ts).members).map (partOf wl.numTransferGroups ts), hdiv, ?_, ?_⟩
  · rw [et]
    exact describes_all hids (fun e he => (hord _).mem_iff.mp he) hf
  · have hsteps := serialize_steps htl
    have : steps.filter (listedStep none) = steps := List.filter_eq_self.mpr fun _ _ => rfl
    rw [this] at hsteps
    have key : ∀ (rs : List TimestepStats) (es : List TimestepEntry), (∀ r ∈ rs, ∀ id ∈ r.live, id < ts.length) →
        List.Forall₂ (fun r e => emitTimestep fp dev (timelineGroups wl ts) r = .ok e) rs es →
        List.Forall₂ (fun (r : TimestepStats) (e : TimestepEntry) => e.startc = r.startc ∧ e.endc = r.endc ∧
        e.active.Pairwise (· < ·) ∧
        ∀ g, g ∈ e.active ↔ ∃ id ∈ r.live, ∃ t, ts[id]? = some t ∧ ∃ p ∈
          (ord (timelineGroups wl ts).members).map (partOf wl.numTransferGroups ts), p.1 = g ∧ t ∈ p.2) rs es := by
      intro rs es hl h
      induction h with
      | nil => exact List.Forall₂.nil
      | @cons r e rs es h1 _ ih =>
        refine List.Forall₂.cons ?_ (ih fun x hx => hl x (by simp [hx]))
        obtain ⟨e1, e2, e3⟩ := emitTimestep_cycles h1
        obtain ⟨u1, u2⟩ := C53_uniquify
          (r.live.map fun (id : Nat) => ((timelineGroups wl ts).groupOf.lookup (id : Int)).getD 0)
        refine ⟨e1, e2, by rw [e3]; exact u1, fun g => ?_⟩
        rw [e3, u2, List.mem_map]
        have hname : ∀ id ∈ r.live, ∃ x ∈ keyed (wl.numTransferGroups : Int) ts, ts[id]? = some x.2 ∧
            ((timelineGroups wl ts).groupOf.lookup (id : Int)).getD 0 = x.1 := by
          intro id hid
          have hlt := hl r (by simp) id hid
          have ht : ts[id]? = some ts[id] := List.getElem?_eq_getElem hlt
          have hm : ts[id] ∈ (keyed (wl.numTransferGroups : Int) ts).map (·.2) := by
            rw [keyed_snd]; exact List.getElem_mem hlt
          obtain ⟨x, hx, hxe⟩ := List.mem_map.mp hm
          refine ⟨x, hx, by rw [ht, hxe], ?_⟩
          have := hg.name x hx
          rw [hxe, hids id _ ht] at this
          rw [this]
          rfl
        constructor
        · rintro ⟨id, hid, rfl⟩
          obtain ⟨x, hx, ht, hn⟩ := hname id hid
          obtain ⟨e', he', hee⟩ := List.mem_map.mp ((hg.keys x.1).mpr ⟨x, hx, rfl⟩)
          refine ⟨id, hid, x.2, ht, partOf wl.numTransferGroups ts e',
            List.mem_map.mpr ⟨e', (hord _).mem_iff.mpr he', rfl⟩, ?_, ?_⟩
          · rw [hn]; exact hee
          · rw [mem_partOf]
            rw [hee]
            exact hx
        · rintro ⟨id, hid, t, ht, p, hp, rfl, htp⟩
          refine ⟨id, hid, ?_⟩
          obtain ⟨x, hx, ht', hn⟩ := hname id hid
          obtain ⟨e', he', rfl⟩ := List.mem_map.mp hp
          rw [mem_partOf] at htp
          have h2 := hg.name _ htp
          simp only at h2
          rw [hids id t ht] at h2
          rw [h2]
          rfl
    exact key _ _ hlive hsteps

/-- C46, completed runs.  Every run that returns statistics for a workload of executable transfers with
registered groups can be written: the consistency checks succeed, the full file and all split files are
produced, and the full file divides the transfers and names the live ones in each timestep. -/
theorem C46_run (fp : FP) (dev : Device) (hd : DeviceOk dev) (hsmall : dev.rows ≤ 32767 ∧ dev.cols ≤ 32767)
    (cpt : Nat) (hpos : 0 < cpt) (congestion : Bool) (ho : HashOrder) (hlinks : ∀ l, (ho.links l).Perm l)
    (ord : List (Int × List Int) → List (Int × List Int)) (hord : ∀ l, (ord l).Perm l) (wl : Workload)
    (hex : ∀ t ∈ wl.transfers, Executable dev t)
    (hreg : ∀ t ∈ wl.transfers, t.groupId ≠ -1 → t.groupIdx ≠ -1 → t.groupId < wl.numTransferGroups)
    (s : Sim) (st : Stats) (h : runSingle fp dev ho cpt congestion wl = .ok (.inl (s, st)))
    (threshold : Nat) (ht : 0 < threshold) :
    ∃ ds full splits, (MESH_DEVICE, ds) ∈ st ∧
      emitTimeline fp dev ord threshold wl s.ts st = .ok (full, splits) ∧
      ∃ parts, Division s.ts parts ∧ List.Forall₂ Describes parts full.transfers ∧
        List.Forall₂ (fun (r : TimestepStats) (e : TimestepEntry) => e.startc = r.startc ∧ e.endc = r.endc ∧
          e.active.Pairwise (· < ·) ∧
          ∀ g, g ∈ e.active ↔ ∃ id ∈ r.live, ∃ t, s.ts[id]? = some t ∧ ∃ p ∈ parts, p.1 = g ∧ t ∈ p.2)
          ds.steps full.timesteps := by
  obtain ⟨hids, hts, hrec, ds, hds, hm⟩ := run_written hd hpos (exec_onChips hex) h
  have hR : Registered wl.numTransferGroups s.ts := fun t ht hg => hreg _ (hts t ht).1 hg.1 hg.2
  have hW : ∀ t ∈ s.ts, Writable dev t := fun t ht =>
    exec_writable hd hlinks hsmall (hex _ (hts t ht).1) (hts t ht).2
  have hst : ∀ r ∈ ds.steps, r.niuGrid.length ≤ dev.niuTable.length ∧ r.linkGrid.length ≤ dev.linkTable.length :=
    fun r hr => ⟨(hrec _ hm r hr).niu, (hrec _ hm r hr).link⟩
  have htot := fun region => serialize_total (fp := fp) hd hord hids hR hW hst region
  obtain ⟨full, hfull⟩ := htot none
  obtain ⟨rs, hrs⟩ : ∃ rs, splitRegions ds.steps threshold = .ok rs := by
    by_cases hn : threshold < ds.steps.length
    · obtain ⟨rs, h, _⟩ := C44_regions ds.steps threshold ht hn
      exact ⟨rs, h⟩
    · exact ⟨[], C44_no_split _ _ (by omega)⟩
  obtain ⟨splits, hsp⟩ := Out.mapM_total (f := fun (r : Region) => do
      let t ← serializeV1 fp dev ord wl s.ts ds.steps (some r)
      return (r, t)) (l := rs) fun r _ => by
    obtain ⟨t, ht⟩ := htot (some r)
    rw [ht]
    exact ⟨(r, t), rfl⟩
  obtain ⟨parts, h1, h2, h3⟩ := C46_active fp dev ord hord wl s.ts ds.steps hids
    (fun r hr => (hrec _ hm r hr).live) full hfull
  refine ⟨ds, full, splits, hm, ?_, parts, h1, h2, h3⟩
  unfold emitTimeline
  rw [hds]
  simp only
  rw [hfull, Out.bind_ok, hrs, Out.bind_ok, hsp, Out.bind_ok]
  rfl

/-- Two grouped transfers of group 0 with an ungrouped one between them. -/
def mixed : List Transfer :=
  [{ Sample.tr 300 0 with groupId := 0, groupIdx := 1 }, Sample.tr 200 0,
    { Sample.tr 100 0 with groupId := 0, groupIdx := 0 }]

/-- Names and segments (start cycles) of the full timeline, and the active names of each timestep. -/
def sampleEntries (wl : Workload) (dev : Device) : Option (Out (List (Int × List Nat) × List (List Int))) :=
  match runSingle .exact dev ⟨id, id⟩ 128 false wl with
  | .ok (.inl (s, st)) => some do
    let (full, _) ← emitTimeline .exact dev id 10000 wl s.ts st
    return (full.transfers.map fun t => (t.id, t.route.map (·.endc)), full.timesteps.map (·.active))
  | _ => none

/-- Group 0 is listed in order of its indices (the segment that ends at 484 has index 0), the other
transfer has a name of its own; the last record is the invented one. -/
example : sampleEntries { windowed 0 mixed with numTransferGroups := 1 } Sample.dev =
    some (.ok ([(0, [484, 300]), (1, [200])], [[0, 1], [0, 1], [0], [0], []])) := by decide +kernel

/-- The run of `mixed` satisfies the conditions of `C46_run`. -/
example : ∀ t ∈ (windowed 0 mixed).transfers, Executable Sample.dev t ∧
    (t.groupId ≠ -1 → t.groupIdx ≠ -1 → t.groupId < (1 : Nat)) := by
  intro t ht
  have : (windowed 0 mixed).transfers = [
    { Sample.tr 300 0 with groupId := 0, groupIdx := 1, id := 0, phaseId := 0 },
    { Sample.tr 200 0 with id := 1, phaseId := 0 },
    { Sample.tr 100 0 with groupId := 0, groupIdx := 0, id := 2, phaseId := 0 }] := by
    decide +kernel
  rw [this] at ht
  simp only [List.mem_cons, List.not_mem_nil, or_false] at ht
  rcases ht with rfl | rfl | rfl <;>
    exact ⟨⟨by decide, by decide, by decide, by unfold IsCore; decide,
      .core _ (by unfold IsCore; decide) rfl, fun _ _ => ⟨rfl, _, rfl⟩⟩, by decide⟩

/-- A device of four rows and two columns. -/
def tall : Device := { wormhole .exact false 1 with rows := 4, cols := 2 }

/-- Two transfers of group 0 between different tiles. -/
def pair : Workload :=
  { windowed 0 [
      Transfer.make 300 1 ⟨0, 0, 1⟩ (.unicast ⟨0, 2, 1⟩) 1 0 .noc0 "" "" 0 0 (-1),
      Transfer.make 300 1 ⟨0, 0, 1⟩ (.unicast ⟨0, 2, 1⟩) 1 0 .noc0 "" "" 0 1 (-1)] with
    numTransferGroups := 1 }

/-- The registration matters: removing local transfers keeps both transfers of the group but forgets how
many groups are registered.  The simulation succeeds as before, and then writing the timeline fails with
the serializer's own consistency check. -/
theorem C46_violated_removal :
    sampleEntries pair tall = some (.ok ([(0, [300, 300])], [[0], [0], [0], []])) ∧
    pair.removeLocalUnicastTransfers.transfers = pair.transfers ∧
    sampleEntries pair.removeLocalUnicastTransfers tall = some (.exc .undef) :=
  ⟨by decide +kernel, by decide +kernel, by decide +kernel⟩

/-! ### C45 for whole files -/

theorem listed_file {dev : Device} {wl : Workload} {ts : List TState} (hids : IdsArePositions ts) {r : Region}
    {es : List (Int × List Int)} {outs : List (List LogicalTransfer)}
    (hsub : ∀ e ∈ es, e ∈ (timelineGroups wl ts).members)
    (h : List.Forall₂ (fun e out => emitGroup dev ts (some r) e = .ok out) es outs) (g : Int) :
    g ∈ outs.flatten.map (·.id) ↔ ∃ p ∈ es.map (partOf wl.numTransferGroups ts), p.1 = g ∧
      ∃ first last, p.2.head? = some first ∧ p.2.getLast? = some last ∧
        r.partially first.start last.endc = true := by
  induction h with
  | nil => simp
  | @cons e out es outs h1 _ ih =>
    have ih' := ih fun x hx => hsub x (by simp [hx])
    rw [List.flatten_cons, List.map_append, List.mem_append, ih', List.map_cons]
    simp only [List.mem_cons, exists_eq_or_imp]
    refine or_congr ?_ Iff.rfl
    obtain ⟨first, last, hf, hl, ⟨hfalse, hout⟩ | ⟨htrue, dst, route, _, hroute, hout⟩⟩ :=
      emitGroup_ok hids (hsub e (by simp)) h1
    · rw [hout]
      simp only [List.map_nil, List.not_mem_nil, false_iff]
      rintro ⟨_, f, l, hf', hl', hp⟩
      rw [hf] at hf'
      rw [hl] at hl'
      rw [← Option.some.inj hf', ← Option.some.inj hl'] at hp
      simp only [listed] at hfalse
      rw [hp] at hfalse
      cases hfalse
    · rw [hout]
      simp only [List.map_cons, List.map_nil, List.mem_singleton]
      constructor
      · rintro rfl
        exact ⟨rfl, first, last, hf, hl, htrue⟩
      · rintro ⟨rfl, _⟩
        rfl

/-- C45 for the split file of a region (missing: logical transfers that begin before and end after the
region).  The file lists exactly the logical transfers that are active during the region. -/
theorem C45_file_partial (fp : FP) (dev : Device) (ord : List (Int × List Int) → List (Int × List Int))
    (hord : ∀ l, (ord l).Perm l) (wl : Workload) (ts : List TState) (steps : List TimestepStats)
    (hids : IdsArePositions ts) (r : Region)
    (hr : r.startCycle < r.endCycle) (tl : Timeline)
    (htl : serializeV1 fp dev ord wl ts steps (some r) = .ok tl) :
    ∃ parts, Division ts parts ∧ (∀ lt ∈ tl.transfers, lt.id ∈ parts.map (·.1)) ∧
      ∀ p ∈ parts, ∀ first last, p.2.head? = some first → p.2.getLast? = some last →
        first.start < last.endc → ¬ (first.start < r.startCycle ∧ r.endCycle < last.endc) →
        (p.1 ∈ tl.transfers.map (·.id) ↔ Intersect first.start last.endc r.startCycle r.endCycle) := by
  obtain ⟨hc, outs, hf, et⟩ := serialize_groups htl
  have hdiv := parts_division hids hc (hord (timelineGroups wl ts).members)
  have key := fun g => listed_file (wl := wl) hids (fun e he => (hord _).mem_iff.mp he) hf g
  refine ⟨(ord (timelineGroups wl ts).members).map (partOf wl.numTransferGroups ts), hdiv, ?_, ?_⟩
  · intro lt hlt
    rw [et] at hlt
    obtain ⟨p, hp, e, _⟩ := (key lt.id).mp (List.mem_map_of_mem hlt)
    rw [← e]
    exact List.mem_map_of_mem hp
  · intro p hp first last hfirst hlast hlt hspan
    rw [et, key]
    have hc : r.partially first.start last.endc = true ↔ Intersect first.start last.endc r.startCycle r.endCycle :=
      C45_no_span _ _ _ hlt hr hspan
    rw [← hc]
    constructor
    · rintro ⟨q, hq, e, f, l, h1, h2, h3⟩
      have : q = p := List.inj_on_of_nodup_map hdiv.names hq hp e
      rw [this, hfirst] at h1
      rw [this, hlast] at h2
      rw [Option.some.inj h1, Option.some.inj h2]
      exact h3
    · intro h
      exact ⟨p, hp, rfl, first, last, hfirst, hlast, h⟩

/-- The files for cycles 0-256 and 256-512 of a run with an early and a late transfer. -/
example : sampleTimeline 2 [Sample.tr 100 0, Sample.tr 100 300] = some (
    [(0, 128), (128, 256), (256, 384), (384, 512), (0, 0)],
    [⟨(0, 256), [(0, 128), (128, 256), (0, 0)], [0]⟩, ⟨(256, 512), [(256, 384), (384, 512)], [1]⟩,
      ⟨(0, 0), [(0, 0)], []⟩]) := by decide +kernel

/-! ### C63: links of a segment -/

/-- What a segment `sg` says about transfer `t`: an entry at the source, links, and an exit at each
destination.  For a unicast the links are a connected dimension-ordered path from the source to the
destination; for a multicast they are the links of the routes to the far edge of the rectangle, each
once, and the destinations are the worker cores of the rectangle. -/
structure Traces (dev : Device) (ord : List Int → List Int) (t : TState) (sg : Segment) : Prop where
  unicast : ∀ e, t.params.dst = .unicast e → sg.dst = [e] ∧
    ∃ ls, IsPath dev.rows dev.cols t.params.src ls e ∧ DimOrdered t.params.noc ls ∧
      sg.links = (t.params.src, .entry t.params.noc) :: (ls.map fun l => (l.coord, HopKind.link l.type)) ++
        [(e, .exit t.params.noc)]
  multicast : ∀ g, t.params.dst = .mcast [g] →
    (∀ c, c ∈ sg.dst ↔ InRect g c ∧ dev.getCoreType c = .ok .worker) ∧
    ∃ ls : List LinkAttr, ls.Nodup ∧
      sg.links = (t.params.src, .entry t.params.noc) :: (ls.map fun l => (l.coord, HopKind.link l.type)) ++
        sg.dst.map (fun c => (c, .exit t.params.noc)) ∧
      ∀ l, l ∈ ls ↔ ∃ x, x.dev = t.params.src.dev ∧ farEdge t.params.noc g x ∧
        ∃ u us, dev.route ord t.params.noc t.params.src (.unicast x) = .ok u ∧ Denotes dev u us ∧ l ∈ us

theorem denotes_mem {dev : Device} {ids : List Int} {ls : List LinkAttr} (h : Denotes dev ids ls) (l : LinkAttr) :
    l ∈ ls ↔ ∃ i ∈ ids, dev.getLinkAttributes i = .ok l := by
  induction h with
  | nil => simp
  | @cons i a ids ls h1 _ ih =>
    simp only [List.mem_cons, exists_eq_or_imp, ih]
    refine or_congr ?_ Iff.rfl
    rw [h1]
    exact ⟨fun h => by rw [h], fun h => (Out.ok.inj h).symm⟩

theorem denotes_nodup {dev : Device} {ids : List Int} {ls : List LinkAttr} (h : Denotes dev ids ls)
    (hn : ids.Nodup) : ls.Nodup := by
  induction h with
  | nil => exact List.nodup_nil
  | @cons i a ids ls h1 h2 ih =>
    rw [List.nodup_cons] at hn ⊢
    refine ⟨fun ha => hn.1 ?_, ih hn.2⟩
    obtain ⟨j, hj, e⟩ := (denotes_mem h2 a).mp ha
    have e1 := ((dev.getLinkAttributes_eq _ _).mp h1).2
    have e2 := ((dev.getLinkAttributes_eq _ _).mp e).2
    rw [e1, ← e2]; exact hj

theorem segment_traces {dev : Device} (hd : DeviceOk dev) (hsmall : dev.rows ≤ 32767 ∧ dev.cols ≤ 32767)
    {ord : List Int → List Int} (hord : ∀ l, (ord l).Perm l) {t : TState} (hx : Executable dev t.params)
    (hr : dev.route ord t.params.noc t.params.src t.params.dst = .ok t.route) {sg : Segment}
    (h : segmentOf dev t = .ok sg) : Traces dev ord t sg := by
  obtain ⟨dst, attrs, h1, h2, rfl⟩ := segmentOf_ok h
  have h2 : Denotes dev t.route attrs := Out.mapM_eq_ok.mp h2
  have hdst := hx.dst
  constructor
  · intro e he
    rw [he] at hdst h1 hr
    cases hdst with
    | core _ hc hdv =>
      obtain ⟨ids, ls, a1, a2, a3, a4, _⟩ := C05_unicast_path dev hd ord t.params.noc t.params.src e hx.src hc hdv
      have e1 : dst = [e] := (Out.ok.inj h1).symm
      subst e1
      rw [hr] at a1
      have e2 : attrs = ls := by
        rw [Out.ok.inj a1] at h2
        have b1 := Out.mapM_eq_ok.mpr h2
        rw [Out.mapM_eq_ok.mpr a2] at b1
        exact (Out.ok.inj b1).symm
      rw [e2]
      exact ⟨rfl, ls, a3, a4, rfl⟩
  · intro g hg
    rw [hg] at hdst h1 hr
    cases hdst with
    | rect _ hlo hhi hrr hcc hdv =>
      have hchip := hx.src.1
      have hlo' : IsCore dev g.lo := ⟨by rw [hdv]; exact hchip, hlo.1, hlo.2⟩
      constructor
      · intro c
        have hrect : RectOk g := by
          obtain ⟨⟨a1, a2⟩, a3, a4⟩ := hlo
          obtain ⟨⟨b1, b2⟩, b3, b4⟩ := hhi
          exact ⟨hrr, hcc, by omega, by omega, by omega, by omega⟩
        have hmc : mcastCoords [g] = .ok (Spec.cells g) := by
          rw [mcastCoords_eq [g] (by intro g' hg'; simp only [List.mem_singleton] at hg'; rw [hg']; exact hrect)]
          simp
        unfold destinationList mcastWorkers at h1
        simp only at h1
        rw [hmc, Out.bind_ok] at h1
        obtain ⟨tys, htys, h1⟩ := Out.bind_eq_ok.mp h1
        have h3 := Out.mapM_eq_ok.mp htys
        rw [← Out.ok.inj h1]
        have key : ∀ (cs : List Coord) (tys : List CoreType),
            List.Forall₂ (fun c ty => dev.getCoreType c = .ok ty) cs tys →
            (c ∈ ((cs.zip tys).filter fun p => p.2 = .worker).map (·.1) ↔ c ∈ cs ∧ dev.getCoreType c = .ok .worker) := by
          intro cs tys h
          induction h with
          | nil => simp
          | @cons a ty cs tys h4 _ ih =>
            rw [List.zip_cons_cons, List.filter_cons]
            by_cases hw : ty = .worker
            · rw [if_pos (by simpa using hw), List.map_cons, List.mem_cons, ih, List.mem_cons]
              subst hw
              constructor
              · rintro (rfl | ⟨h5, h6⟩)
                · exact ⟨Or.inl rfl, h4⟩
                · exact ⟨Or.inr h5, h6⟩
              · rintro ⟨rfl | h5, h6⟩
                · exact Or.inl rfl
                · exact Or.inr ⟨h5, h6⟩
            · rw [if_neg (by simpa using hw), ih, List.mem_cons]
              constructor
              · rintro ⟨h5, h6⟩
                exact ⟨Or.inr h5, h6⟩
              · rintro ⟨rfl | h5, h6⟩
                · rw [h4] at h6
                  exact absurd (Out.ok.inj h6) hw
                · exact ⟨h5, h6⟩
        show c ∈ _ ↔ _
        rw [key _ _ h3, mem_cells]
      · refine ⟨attrs, ?_, rfl, ?_⟩
        · obtain ⟨ids, a1, a2, _⟩ := dev.route_mcast_eq hd ord hord t.params.noc t.params.src g hx.src hlo hhi hdv
          rw [hr] at a1
          rw [Out.ok.inj a1] at h2
          exact denotes_nodup h2 a2
        · intro l
          have hm : ∃ ids, dev.route ord t.params.noc t.params.src (.mcast [g]) = .ok ids ∧ ∀ i, i ∈ ids ↔
              ∃ x, x.dev = t.params.src.dev ∧ farEdge t.params.noc g x ∧
              ∃ u, dev.route ord t.params.noc t.params.src (.unicast x) = .ok u ∧ i ∈ u := by
            obtain ⟨ids, a1, _, a3⟩ := C09_multicast_union dev hd ord hord t.params.noc t.params.src g hx.src
              hlo' hhi hdv
            exact ⟨ids, a1, a3⟩
          obtain ⟨ids, a1, a3⟩ := hm
          rw [hr] at a1
          rw [denotes_mem h2, Out.ok.inj a1]
          constructor
          · rintro ⟨i, hi, hl⟩
            obtain ⟨x, hx1, hx2, u, hu, hiu⟩ := (a3 i).mp hi
            have hxc : IsCore dev x := by
              obtain ⟨⟨c1, c2⟩, c3, c4⟩ := hlo
              obtain ⟨⟨d1, d2⟩, d3, d4⟩ := hhi
              refine ⟨by rw [hx1]; exact hchip, ?_⟩
              cases hn : t.params.noc <;> rw [hn] at hx2 <;> simp only [farEdge] at hx2 <;> omega
            obtain ⟨u', us, b1, b2, _⟩ := C05_unicast_path dev hd ord t.params.noc t.params.src x hx.src hxc hx1
            rw [hu] at b1
            rw [← Out.ok.inj b1] at b2
            exact ⟨x, hx1, hx2, u, us, hu, b2, (denotes_mem b2 l).mpr ⟨i, hiu, hl⟩⟩
          · rintro ⟨x, hx1, hx2, u, us, hu, hus, hl⟩
            obtain ⟨i, hi, hil⟩ := (denotes_mem hus l).mp hl
            exact ⟨i, (a3 i).mpr ⟨x, hx1, hx2, u, hu, hi⟩, hil⟩

/-- C63.  In the timeline of every completed run of executable transfers, every segment of every logical
transfer, in the full file and in every split file, traces the route of one of its transfers. -/
theorem C63_links (fp : FP) (dev : Device) (hd : DeviceOk dev) (hsmall : dev.rows ≤ 32767 ∧ dev.cols ≤ 32767)
    (cpt : Nat) (hpos : 0 < cpt) (congestion : Bool) (ho : HashOrder) (hlinks : ∀ l, (ho.links l).Perm l)
    (ord : List (Int × List Int) → List (Int × List Int)) (hord : ∀ l, (ord l).Perm l) (wl : Workload)
    (hex : ∀ t ∈ wl.transfers, Executable dev t)
    (s : Sim) (st : Stats) (h : runSingle fp dev ho cpt congestion wl = .ok (.inl (s, st)))
    (steps : List TimestepStats) (region : Option Region) (tl : Timeline)
    (htl : serializeV1 fp dev ord wl s.ts steps region = .ok tl) :
    ∃ parts, Division s.ts parts ∧ ∀ lt ∈ tl.transfers, ∃ p ∈ parts, p.1 = lt.id ∧
      List.Forall₂ (Traces dev ho.links) p.2 lt.route := by
  obtain ⟨hids, hts, _⟩ := run_written hd hpos (exec_onChips hex) h
  obtain ⟨hc, outs, hf, et⟩ := serialize_groups htl
  refine ⟨(ord (timelineGroups wl s.ts).members).map (partOf wl.numTransferGroups s.ts),
    parts_division hids hc (hord _), ?_⟩
  intro lt hlt
  rw [et] at hlt
  obtain ⟨out, hout, hlt⟩ := List.mem_flatten.mp hlt
  obtain ⟨e, he, heo⟩ := forall₂_exists_of_mem_right hf hout
  obtain ⟨first, last, _, _, ⟨_, eo⟩ | ⟨_, dst, route, _, hroute, eo⟩⟩ :=
    emitGroup_ok hids ((hord _).mem_iff.mp he) heo
  · rw [eo] at hlt; simp at hlt
  · rw [eo, List.mem_singleton] at hlt
    subst hlt
    refine ⟨_, List.mem_map_of_mem he, rfl, ?_⟩
    have key : ∀ (l : List TState) (m : List Segment), (∀ t ∈ l, t ∈ s.ts) →
        List.Forall₂ (fun t sg => segmentOf dev t = .ok sg) l m → List.Forall₂ (Traces dev ho.links) l m := by
      intro l m hl h
      induction h with
      | nil => exact .nil
      | @cons t sg l m h1 _ ih =>
        have ht := hl t (by simp)
        exact .cons (segment_traces hd hsmall hlinks (hex _ (hts t ht).1) (hts t ht).2 h1)
          (ih fun x hx => hl x (by simp [hx]))
    exact key _ _ (fun t ht => partOf_sub ht) hroute

/-- The links written for the transfer from (0,1) to (2,1) of the tall device. -/
example : (match runSingle .exact tall ⟨id, id⟩ 128 false pair with
    | .ok (.inl (s, _)) => match serializeV1 .exact tall id pair s.ts [] none with
      | .ok tl => tl.transfers.map fun t => t.route.map (·.links)
      | _ => []
    | _ => []) = [[
      [(⟨0, 0, 1⟩, .entry .noc0), (⟨0, 0, 1⟩, .link .noc0South), (⟨0, 1, 1⟩, .link .noc0South),
        (⟨0, 2, 1⟩, .exit .noc0)],
      [(⟨0, 0, 1⟩, .entry .noc0), (⟨0, 0, 1⟩, .link .noc0South), (⟨0, 1, 1⟩, .link .noc0South),
        (⟨0, 2, 1⟩, .exit .noc0)]]] := by decide +kernel

/-! ### C64: demands of a timestep -/

theorem mem_significant {fp : FP} {grid : List ℚ} {i : Nat} {d : ℚ} :
    (i, d) ∈ significant fp grid ↔ grid[i]? = some d ∧ fp.f32.fl (1 / 1000) < d := by
  unfold significant
  rw [List.mem_filter]
  simp only [decide_eq_true_eq]
  refine and_congr ?_ Iff.rfl
  rw [List.mem_iff_getElem?]
  simp only [List.getElem?_zip_eq_some]
  constructor
  · rintro ⟨k, h1, h2⟩
    obtain ⟨_, e⟩ := List.getElem?_eq_some_iff.mp h1
    rw [List.getElem_range] at e
    rw [← e]; exact h2
  · intro h
    refine ⟨i, ?_, h⟩
    have := (List.getElem?_eq_some_iff.mp h).1
    rw [List.getElem?_range this]

theorem mapM_mem {α β : Type} {f : α → Out β} {l : List α} {m : List β} (h : Out.mapM f l = .ok m) (b : β) :
    b ∈ m ↔ ∃ a ∈ l, f a = .ok b := by
  replace h := Out.mapM_eq_ok.mp h
  induction h with
  | nil => simp
  | @cons a b' l m h1 _ ih =>
    simp only [List.mem_cons, exists_eq_or_imp, ih]
    refine or_congr ?_ Iff.rfl
    rw [h1]
    exact ⟨fun h => by rw [h], fun h => (Out.ok.inj h).symm⟩

/-- C64.  For every record whose grids fit the device, the demands written for a timestep are exactly the
demands above the threshold 0.001: for each link of the grid one entry with the core and direction of that
link, for each network interface one with its core, direction and NoC, and nothing else. -/
theorem C64_demands (fp : FP) (dev : Device) (hd : DeviceOk dev) (gs : Groups) (r : TimestepStats)
    (h1 : r.niuGrid.length ≤ dev.niuTable.length) (h2 : r.linkGrid.length ≤ dev.linkTable.length)
    (e : TimestepEntry) (he : emitTimestep fp dev gs r = .ok e) (c : Coord) (k : HopKind) (d : ℚ) :
    (c, k, d) ∈ e.linkDemand ↔ fp.f32.fl (1 / 1000) < d ∧
      ((∃ (i : Nat) (l : LinkAttr), r.linkGrid[i]? = some d ∧ dev.linkTable[i]? = some l ∧ l.coord = c ∧ k = .link l.type) ∨
       (∃ (i : Nat) (n : NIUAttr), r.niuGrid[i]? = some d ∧ dev.niuTable[i]? = some n ∧ n.coord = c ∧
          k = match n.type with
            | .noc0Src => .entry .noc0
            | .noc1Src => .entry .noc1
            | .noc0Sink => .exit .noc0
            | .noc1Sink => .exit .noc1)) := by
  have hl : dev.linkTable.length ≤ 32768 := by rw [dev.linkTable_length]; exact hd.ids
  have hn : dev.niuTable.length ≤ 32768 := by rw [dev.niuTable_length]; exact hd.ids
  unfold emitTimestep at he
  obtain ⟨A, hA, he⟩ := Out.bind_eq_ok.mp he
  obtain ⟨B, hB, he⟩ := Out.bind_eq_ok.mp he
  rw [← Out.ok.inj he]
  show (c, k, d) ∈ A ++ B ↔ _
  rw [List.mem_append, or_comm, and_or_left]
  have getl : ∀ i : Nat, i < r.linkGrid.length → dev.getLinkAttributes (toI16 (i : Int)) =
      match dev.linkTable[i]? with | some a => .ok a | none => .exc .undef := by
    intro i hi
    unfold Device.getLinkAttributes
    rw [toI16_small (by omega), if_neg (by omega), Int.toNat_natCast]
    rfl
  have getn : ∀ i : Nat, i < r.niuGrid.length → dev.getNIUAttributes (toI16 (i : Int)) =
      match dev.niuTable[i]? with | some a => .ok a | none => .exc .undef := by
    intro i hi
    unfold Device.getNIUAttributes
    rw [toI16_small (by omega), if_neg (by omega), Int.toNat_natCast]
    rfl
  refine or_congr ?_ ?_
  · rw [mapM_mem hB]
    constructor
    · rintro ⟨⟨i, x⟩, hi, hx⟩
      obtain ⟨hg, hs⟩ := mem_significant.mp hi
      obtain ⟨a, ha, hx⟩ := Out.bind_eq_ok.mp hx
      simp only [Out.pure_eq, Out.ok.injEq, Prod.mk.injEq] at hx
      obtain ⟨e1, e2, e3⟩ := hx
      subst e3
      simp only at ha
      rw [getl i (List.getElem?_eq_some_iff.mp hg).1] at ha
      cases ht : dev.linkTable[i]? with
      | none => rw [ht] at ha; cases ha
      | some b =>
        rw [ht] at ha
        have := Out.ok.inj ha
        subst this
        exact ⟨hs, i, b, hg, ht, e1, e2.symm⟩
    · rintro ⟨hs, i, l, hg, ht, e1, e2⟩
      refine ⟨(i, d), mem_significant.mpr ⟨hg, hs⟩, ?_⟩
      simp only
      rw [getl i (List.getElem?_eq_some_iff.mp hg).1, ht, e2, ← e1]
      rfl
  · rw [mapM_mem hA]
    constructor
    · rintro ⟨⟨i, x⟩, hi, hx⟩
      obtain ⟨hg, hs⟩ := mem_significant.mp hi
      obtain ⟨a, ha, hx⟩ := Out.bind_eq_ok.mp hx
      simp only [Out.pure_eq, Out.ok.injEq, Prod.mk.injEq] at hx
      obtain ⟨e1, e2, e3⟩ := hx
      subst e3
      simp only at ha
      rw [getn i (List.getElem?_eq_some_iff.mp hg).1] at ha
      cases ht : dev.niuTable[i]? with
      | none => rw [ht] at ha; cases ha
      | some b =>
        rw [ht] at ha
        have := Out.ok.inj ha
        subst this
        refine ⟨hs, i, b, hg, ht, e1, ?_⟩
        rw [← e2]
        cases b.type <;> rfl
    · rintro ⟨hs, i, l, hg, ht, e1, e2⟩
      refine ⟨(i, d), mem_significant.mpr ⟨hg, hs⟩, ?_⟩
      simp only
      rw [getn i (List.getElem?_eq_some_iff.mp hg).1, ht, e2, ← e1]
      cases hl : l.type <;> simp [niuHop, hl]

/-- The first timestep of the transfer from (0,1) to (2,1): its source, two links and the sink. -/
example : (match runSingle .exact tall ⟨id, id⟩ 128 true (windowed 0 [
      Transfer.make 300 1 ⟨0, 0, 1⟩ (.unicast ⟨0, 2, 1⟩) 1 0 .noc0]) with
    | .ok (.inl (_, st)) => (st.lookup MESH_DEVICE).bind fun ds => ds.steps.head?.map fun r =>
        match emitTimestep .exact tall { dummy := 0 } r with
        | .ok e => e.linkDemand.map fun x => (x.1, x.2.1)
        | _ => []
    | _ => none) = some [(⟨0, 0, 1⟩, .entry .noc0), (⟨0, 2, 1⟩, .exit .noc0),
      (⟨0, 0, 1⟩, .link .noc0South), (⟨0, 1, 1⟩, .link .noc0South)] := by decide +kernel

end NPE.Props
