import Verif.Proofs.Capacity
import Verif.Proofs.Table
import Mathlib.Algebra.Order.Ring.Pow

/-
Loads after derating, for exact arithmetic and for arithmetic with rounding.
-/

namespace NPE
open Spec

/-- Error constants of the congestion model: `Le` for one demand, `a` for a sum of at most `n`
demands, `f` for a derating factor. -/
structure Acc (fp : FP) (dev : Device) (n : Nat) (Le a : ℚ) (f : ℚ → ℚ) : Prop where
  le_nonneg : 0 ≤ Le
  a_pos : 0 < a
  demand : ∀ sot curr t, sot < curr → t.start ≤ curr → curr < 4294967296 → 0 ≤ t.bw →
    share sot curr t * t.bw ≤ effectiveDemand fp sot curr t * Le
  sum : ∀ es : List ℚ, es.length ≤ n → (∀ e ∈ es, 0 ≤ e) → es.sum * a ≤ accum fp es 0
  apply : ∀ bw y z, 0 ≤ bw → 0 ≤ y → y ≤ fp.f32.fl z → applyDerate fp dev bw (some y) ≤ bw * f z
  f_nonneg : ∀ z, 0 ≤ z → 0 ≤ f z
  f_mono : ∀ z z', z ≤ z' → f z ≤ f z'

theorem acc_exact (dev : Device) (n : Nat) : Acc .exact dev n 1 1 id where
  le_nonneg := zero_le_one
  a_pos := zero_lt_one
  demand sot curr t h hs hc _ := by rw [effectiveDemand_exact h.le hs hc, mul_one]
  sum es _ _ := by rw [accum_exact]; simp
  apply bw y z hb _ hy := applyDerate_exact hb hy
  f_nonneg z h := h
  f_mono z z' h := h

theorem acc_round (fp : FP) (dev : Device) (n : Nat) : Acc fp dev n
    ((1 + 1 / 16777216) / (1 - 1 / 16777216) ^ 3) ((1 - 1 / 16777216) ^ n)
    (fun z => (max z 0 * (1 + 1 / 16777216) + 1 / 16777216) * (1 + 1 / 16777216) ^ 3) where
  le_nonneg := by positivity
  a_pos := by positivity
  demand sot curr t h hs hc hb := effectiveDemand_ge h hs hc hb
  sum es hn he := by
    have h0 : 0 ≤ es.sum := List.sum_nonneg he
    have h1 := accum_ge fp es 0 le_rfl he
    rw [zero_add] at h1
    refine le_trans (mul_le_mul_of_nonneg_left ?_ h0) h1
    exact pow_le_pow_of_le_one (by norm_num) (by norm_num) hn
  apply bw y z hb h0 hy := by
    have h1 : fp.f32.fl z ≤ max z 0 * (1 + 1 / 16777216) := by
      have h2 : fp.f32.fl z ≤ fp.f32.fl (max z 0) := fp.f32.mono (le_max_left _ _)
      exact le_trans h2 (fp.f32.fl_le_err (le_max_right _ _))
    exact applyDerate_bound hb h0 (le_trans hy h1)
  f_nonneg z h := by have := le_max_right z 0; positivity
  f_mono z z' h := by
    have : max z 0 ≤ max z' 0 := max_le_max h le_rfl
    gcongr

/-- The live transfers before and after derating. -/
theorem derated {fp : FP} {dev : Device} {sot curr : Nat} {ts ts' : List TState} {live : List Nat}
    {g : Grids} (hc : Capacities dev) (hle : sot ≤ curr) (hs : Sane curr ts live)
    (h : modelCongestion fp dev sot curr ts live = .ok (ts', g)) :
    ts'.length = ts.length ∧ (∀ i ∉ live, ts'[i]? = ts[i]?) ∧ ∀ i ∈ live, ∃ t d,
      ts[i]? = some t ∧ ts'[i]? = some { t with bw := applyDerate fp dev t.bw d } ∧
      overallDerate fp dev g t = .ok d ∧ Limits fp dev g t d ∧ InRange dev (initGrids dev) t := by
  obtain ⟨h1, h2, h3⟩ := modelCongestion_parts hs.1 h
  have hg := accumulated_nonneg hle hs h2
  refine ⟨h3.1, h3.2.1, fun i hi => ?_⟩
  obtain ⟨t, b, a1, a2, a3⟩ := h3.2.2 i hi
  obtain ⟨t', a4, a5⟩ := h1 i hi
  rw [a1] at a4
  have e := Option.some.inj a4
  subst e
  unfold deratedBw at a2
  obtain ⟨d, a6, a7⟩ := Out.bind_eq_ok.mp a2
  have e := Out.ok.inj a7
  subst e
  exact ⟨t, d, a1, a3, a6, overallDerate_limits hc hg (hs.2 i hi t a1).2.2 a6, a5⟩

/-- The load of a resource after derating. -/
theorem load_bound {fp : FP} {dev : Device} {n : Nat} {Le a : ℚ} {f : ℚ → ℚ} (A : Acc fp dev n Le a f)
    {use : TState → Prop} [DecidablePred use] {sot curr : Nat} {ts ts' : List TState}
    {live : List Nat} {c : TState → List ℚ} {limit X : ℚ} (hX0 : 0 ≤ X)
    (hX : X = accum fp (contrib c ts live) 0) (hn : (contrib c ts live).length ≤ n)
    (hc0 : ∀ i ∈ live, ∀ t, ts[i]? = some t → ∀ e ∈ c t, 0 ≤ e)
    (hl0 : 0 ≤ limit)
    (h : ∀ i ∈ live, ∃ t d, ts[i]? = some t ∧ 0 ≤ t.bw ∧ fp.f32.Rep t.bw ∧
      ts'[i]? = some { t with bw := applyDerate fp dev t.bw d } ∧ NonnegFactor d ∧
      (∀ b, use { t with bw := b } ↔ use t) ∧ 0 ≤ share sot curr t ∧
      (use t → share sot curr t * t.bw ≤ (c t).sum * Le) ∧
      (use t → 0 < X → AtMost d (fp.f32.fl (limit / X)))) :
    loadOf use sot curr ts' live ≤ 0 ∨
      (0 < X ∧ loadOf use sot curr ts' live ≤ X * Le / a * f (limit / X)) := by
  have hsum := A.sum _ hn (contrib_nonneg hc0)
  rw [← hX] at hsum
  have hload : loadOf use sot curr ts live ≤ (contrib c ts live).sum * Le := by
    refine load_le_contrib live fun i hi => ?_
    obtain ⟨t, d, b1, b2, b3, b4, b5, b6, b7, b8, b9⟩ := h i hi
    exact ⟨t, b1, mul_nonneg (List.sum_nonneg (hc0 i hi t b1)) A.le_nonneg, b8⟩
  have hload2 : loadOf use sot curr ts live ≤ X * Le / a := by
    refine le_trans hload ?_
    rw [le_div_iff₀ A.a_pos]
    calc (contrib c ts live).sum * Le * a = (contrib c ts live).sum * a * Le := by ring
      _ ≤ X * Le := mul_le_mul_of_nonneg_right hsum A.le_nonneg
  rcases hX0.eq_or_lt with h0 | h0
  · left
    have := cap_sum (K := 1) (use := use) (sot := sot) (curr := curr) (ts := ts) (ts' := ts') live (by
      intro i hi
      obtain ⟨t, d, b1, b2, b3, b4, b5, b6, b7, b8, b9⟩ := h i hi
      exact ⟨t, _, b1, b4, b6 _, rfl, b7, fun _ => by
        rw [mul_one]; exact (applyDerate_le b2 b3 b5).2⟩)
    rw [← h0] at hload2
    simp only [zero_mul, zero_div] at hload2
    linarith
  · right
    refine ⟨h0, ?_⟩
    have hq : 0 ≤ limit / X := div_nonneg hl0 h0.le
    have := cap_sum (K := f (limit / X)) (use := use) (sot := sot) (curr := curr) (ts := ts) (ts' := ts')
      live (by
      intro i hi
      obtain ⟨t, d, b1, b2, b3, b4, b5, b6, b7, b8, b9⟩ := h i hi
      refine ⟨t, _, b1, b4, b6 _, rfl, b7, fun hu => ?_⟩
      obtain ⟨y, hy, hyl⟩ := b9 hu h0
      show applyDerate fp dev t.bw d ≤ _
      rw [hy]
      exact A.apply _ _ _ b2 (b5 y hy) hyl)
    exact le_trans this (mul_le_mul_of_nonneg_right hload2 (A.f_nonneg _ hq))

theorem load_unused {use : TState → Prop} [DecidablePred use] {sot curr : Nat} {ts : List TState}
    {live : List Nat} (h : ∀ i ∈ live, ∀ t, ts[i]? = some t → ¬ use t) :
    loadOf use sot curr ts live = 0 := by
  unfold loadOf
  apply List.sum_eq_zero
  intro x hx
  obtain ⟨i, hi, rfl⟩ := List.mem_map.mp hx
  cases ht : ts[i]? with
  | none => rfl
  | some t => simp only; rw [if_neg (h i hi t ht)]

theorem replicate_sum_ge {n : Nat} {e : ℚ} (h0 : 0 ≤ e) (hn : 0 < n) : e ≤ (List.replicate n e).sum := by
  rw [List.sum_replicate, nsmul_eq_mul]
  have : (1 : ℚ) ≤ n := by exact_mod_cast hn
  nlinarith

/-- Common part: a resource with the entry `X`, used by at least one live transfer. -/
theorem entry_bound {fp : FP} {dev : Device} {n : Nat} {Le a : ℚ} {f : ℚ → ℚ} (A : Acc fp dev n Le a f)
    {use : TState → Prop} [DecidablePred use] {sot curr : Nat} {ts ts' : List TState}
    {live : List Nat} {g : Grids} {cnt : TState → Nat} {limit X : ℚ} (hcap : Capacities dev)
    (hlt : sot < curr) (hcurr : curr < 4294967296) (hs : Sane curr ts live)
    (hrep : ∀ i ∈ live, ∀ t, ts[i]? = some t → fp.f32.Rep t.bw)
    (h : modelCongestion fp dev sot curr ts live = .ok (ts', g))
    (hX : X = accum fp (contrib (fun t => List.replicate (cnt t) (effectiveDemand fp sot curr t)) ts live) 0)
    (hn : (contrib (fun t => List.replicate (cnt t) (effectiveDemand fp sot curr t)) ts live).length ≤ n)
    (hl0 : 0 ≤ limit) (huse : ∀ t b, use { t with bw := b } ↔ use t)
    (hcnt : ∀ i ∈ live, ∀ t, ts[i]? = some t → use t → 0 < cnt t)
    (hd : ∀ i ∈ live, ∀ t d, ts[i]? = some t → use t → Limits fp dev g t d → 0 < X →
      AtMost d (fp.f32.fl (limit / X))) :
    loadOf use sot curr ts' live ≤ 0 ∨
      (0 < X ∧ loadOf use sot curr ts' live ≤ X * Le / a * f (limit / X)) := by
  obtain ⟨_, _, h3⟩ := derated hcap hlt.le hs h
  have he : ∀ i ∈ live, ∀ t, ts[i]? = some t → ∀ e ∈ List.replicate (cnt t)
      (effectiveDemand fp sot curr t), 0 ≤ e := by
    intro i hi t ht e he
    rw [(List.mem_replicate.mp he).2]
    exact effectiveDemand_nonneg hlt.le (hs.2 i hi t ht).2.1
  refine load_bound A (limit := limit) (X := X) ?_ hX hn he hl0 fun i hi => ?_
  · rw [hX]; exact accum_nonneg fp _ 0 le_rfl (contrib_nonneg he)
  · obtain ⟨t, d, b1, b2, b3, b4, b5⟩ := h3 i hi
    obtain ⟨s1, s2, s3⟩ := hs.2 i hi t b1
    have e0 : 0 ≤ effectiveDemand fp sot curr t := effectiveDemand_nonneg hlt.le s2
    refine ⟨t, d, b1, s2, hrep i hi t b1, b2, b4.nonneg, fun b => huse t b, share_nonneg hlt.le s1, ?_, ?_⟩
    · intro hu
      refine le_trans (A.demand sot curr t hlt s1 hcurr s2) (mul_le_mul_of_nonneg_right ?_ A.le_nonneg)
      exact replicate_sum_ge e0 (hcnt i hi t b1 hu)
    · exact fun hu h0 => hd i hi t d b1 hu b4 h0

/-- Transfers have the same use of resources before and after. -/
theorem unused_after {use : TState → Prop} [DecidablePred use] {g : TState → Out ℚ}
    {ts ts' : List TState} {live : List Nat} (hw : Written g live ts ts')
    (huse : ∀ t b, use { t with bw := b } ↔ use t) (h : ∀ i ∈ live, ∀ t, ts[i]? = some t → ¬ use t) :
    ∀ i ∈ live, ∀ t, ts'[i]? = some t → ¬ use t := by
  intro i hi t ht
  obtain ⟨t0, b, a1, _, a3⟩ := hw.2.2 i hi
  rw [ht] at a3
  rw [Option.some.inj a3, huse]
  exact h i hi t0 a1

section
variable {fp : FP} {dev : Device} {n : Nat} {Le a : ℚ} {f : ℚ → ℚ}
  {sot curr : Nat} {ts ts' : List TState} {live : List Nat} {g : Grids}

theorem link_bound (A : Acc fp dev n Le a f) (hcap : Capacities dev) (hlt : sot < curr)
    (hcurr : curr < 4294967296) (hs : Sane curr ts live)
    (hrep : ∀ i ∈ live, ∀ t, ts[i]? = some t → fp.f32.Rep t.bw)
    (h : modelCongestion fp dev sot curr ts live = .ok (ts', g)) (l : Int)
    (hn : (contrib (linkC fp sot curr l.toNat) ts live).length ≤ n) :
    linkLoad l sot curr ts' live ≤ 0 ∨ ∃ X, g.link[l.toNat]? = some X ∧
      (0 < X ∧ linkLoad l sot curr ts' live ≤ X * Le / a * f (dev.linkBw / X)) := by
  obtain ⟨p1, p2, p3⟩ := modelCongestion_parts hs.1 h
  by_cases hex : ∃ i ∈ live, ∃ t, ts[i]? = some t ∧ l ∈ t.route
  · obtain ⟨i, hi, t, ht, hl⟩ := hex
    obtain ⟨t', ht', hr⟩ := p1 i hi
    rw [ht] at ht'
    have e := Option.some.inj ht'
    subst e
    obtain ⟨l0, l1⟩ := hr.2.1 l hl
    have hcast : ((l.toNat : Nat) : Int) = l := Int.toNat_of_nonneg l0
    have hlen : l.toNat < dev.linkTable.length := by
      simp only [initGrids, List.length_replicate] at l1; omega
    have hX := p2.2.2.2.2.1 l.toNat
    rw [initGrids_link, if_pos hlen, Option.map_some] at hX
    have := entry_bound (use := fun t => l ∈ t.route) A (limit := dev.linkBw) hcap hlt hcurr hs hrep h
      (cnt := fun t => t.route.count ((l.toNat : Nat) : Int)) rfl hn hcap.1 (fun _ _ => Iff.rfl)
      (fun j _ u _ hu => List.count_pos_iff.mpr (by rw [hcast]; exact hu))
      (fun j _ u d _ hu L h0 => by
        obtain ⟨x, _, x2, x3⟩ := L.link l hu
        rw [hX] at x2
        have e := Option.some.inj x2
        rw [← e] at x3
        exact x3 h0)
    rcases this with h1 | h1
    · exact Or.inl h1
    · exact Or.inr ⟨_, hX, h1⟩
  · left
    refine le_of_eq (load_unused (unused_after p3 (fun _ _ => Iff.rfl) ?_))
    intro i hi t ht hu
    exact hex ⟨i, hi, t, ht, hu⟩

theorem mem_loads_src {t : Transfer} {L : List Int} {i : Int} (h : loads dev t = .ok L)
    (hi : dev.niuAt t.src (srcNiu t.noc) = .ok i) : i ∈ L := by
  unfold loads at h
  obtain ⟨s, h1, h⟩ := Out.bind_eq_ok.mp h
  obtain ⟨k, h2, h⟩ := Out.bind_eq_ok.mp h
  rw [hi] at h1
  rw [← Out.ok.inj h, ← Out.ok.inj h1]; simp

theorem mem_loads_sink {t : Transfer} {L : List Int} {i : Int} {e : Coord} (h : loads dev t = .ok L)
    (ht : t.dst = .unicast e) (hi : dev.niuAt e (sinkNiu t.noc) = .ok i) : i ∈ L := by
  unfold loads at h
  obtain ⟨s, h1, h⟩ := Out.bind_eq_ok.mp h
  obtain ⟨k, h2, h⟩ := Out.bind_eq_ok.mp h
  unfold sinkIds at h2
  rw [ht] at h2
  simp only [hi, Out.bind_ok, Out.ok.injEq] at h2
  rw [← Out.ok.inj h, ← h2]; simp

theorem src_bound (A : Acc fp dev n Le a f) (hcap : Capacities dev) (hlt : sot < curr)
    (hcurr : curr < 4294967296) (hs : Sane curr ts live)
    (hrep : ∀ i ∈ live, ∀ t, ts[i]? = some t → fp.f32.Rep t.bw)
    (h : modelCongestion fp dev sot curr ts live = .ok (ts', g)) (noc : Noc) (c : Coord) (R : ℚ)
    (hR : 0 ≤ R) (hrate : ∀ i ∈ live, ∀ t, ts[i]? = some t → t.params.noc = noc → t.params.src = c →
      t.params.injectionRate ≤ R)
    (hn : ∀ k, dev.niuAt c (srcNiu noc) = .ok k → (contrib (niuC fp dev sot curr k.toNat) ts live).length ≤ n) :
    srcLoad noc c sot curr ts' live ≤ 0 ∨ ∃ X k, dev.niuAt c (srcNiu noc) = .ok k ∧ g.niu[k.toNat]? = some X ∧
      (0 < X ∧ srcLoad noc c sot curr ts' live ≤ X * Le / a * f (R / X)) := by
  obtain ⟨p1, p2, p3⟩ := modelCongestion_parts hs.1 h
  by_cases hex : ∃ i ∈ live, ∃ t, ts[i]? = some t ∧ (t.params.noc = noc ∧ t.params.src = c)
  · obtain ⟨i, hi, t, ht, hl⟩ := hex
    obtain ⟨t0, d0, b1, _, _, b4, b5⟩ := (derated hcap hlt.le hs h).2.2 i hi
    rw [ht] at b1
    have e := Option.some.inj b1
    subst e
    obtain ⟨k, x, k1, k2, k3, _⟩ := b4.src
    rw [hl.1, hl.2] at k1
    have hX := p2.2.2.2.1 k.toNat
    rw [k3] at hX
    have hcast : ((k.toNat : Nat) : Int) = k := Int.toNat_of_nonneg k2
    have hX' : x = accum fp (contrib (niuC fp dev sot curr k.toNat) ts live) 0 := by
      rw [initGrids_niu] at hX
      split at hX
      · exact Option.some.inj hX
      · simp at hX
    have := entry_bound (use := fun t => t.params.noc = noc ∧ t.params.src = c) A (limit := R) hcap hlt
      hcurr hs hrep h
      (cnt := fun t => ((loads dev t.params).getD []).count ((k.toNat : Nat) : Int)) hX' (hn _ k1) hR
      (fun _ _ => Iff.rfl)
      (fun j hj u hu hu2 => by
        obtain ⟨u', hu', ⟨L, hL, _⟩, _⟩ := p1 j hj
        rw [hu] at hu'
        have e := Option.some.inj hu'
        subst e
        rw [hL, hcast]
        exact List.count_pos_iff.mpr (mem_loads_src hL (by rw [hu2.1, hu2.2]; exact k1)))
      (fun j hj u d hu hu2 L h0 => by
        obtain ⟨i2, x2, y1, y2, y3, y4⟩ := L.src
        rw [hu2.1, hu2.2, k1] at y1
        rw [← Out.ok.inj y1, k3] at y3
        rw [← Option.some.inj y3] at y4
        obtain ⟨z, z1, z2⟩ := y4 h0
        refine ⟨z, z1, le_trans z2 (fp.f32.mono ?_)⟩
        exact div_le_div_of_nonneg_right (hrate j hj u hu hu2.1 hu2.2) h0.le)
    rcases this with h1 | h1
    · exact Or.inl h1
    · exact Or.inr ⟨_, k, k1, k3, h1⟩
  · left
    refine le_of_eq (load_unused (unused_after p3 (fun _ _ => Iff.rfl) ?_))
    intro i hi t ht hu
    exact hex ⟨i, hi, t, ht, hu⟩

theorem sink_bound (A : Acc fp dev n Le a f) (hcap : Capacities dev) (hlt : sot < curr)
    (hcurr : curr < 4294967296) (hs : Sane curr ts live)
    (hrep : ∀ i ∈ live, ∀ t, ts[i]? = some t → fp.f32.Rep t.bw)
    (h : modelCongestion fp dev sot curr ts live = .ok (ts', g)) (noc : Noc) (c : Coord) (R : ℚ)
    (hR : dev.getSinkAbsorptionRate c = .ok R)
    (hn : ∀ k, dev.niuAt c (sinkNiu noc) = .ok k → (contrib (niuC fp dev sot curr k.toNat) ts live).length ≤ n) :
    unicastSinkLoad noc c sot curr ts' live ≤ 0 ∨ ∃ X k, dev.niuAt c (sinkNiu noc) = .ok k ∧ g.niu[k.toNat]? = some X ∧
      (0 < X ∧ unicastSinkLoad noc c sot curr ts' live ≤ X * Le / a * f (R / X)) := by
  obtain ⟨p1, p2, p3⟩ := modelCongestion_parts hs.1 h
  have hR0 := absRate_nonneg hcap hR
  by_cases hex : ∃ i ∈ live, ∃ t, ts[i]? = some t ∧ (t.params.noc = noc ∧ t.params.dst = .unicast c)
  · obtain ⟨i, hi, t, ht, hl⟩ := hex
    obtain ⟨t0, d0, b1, _, _, b4, b5⟩ := (derated hcap hlt.le hs h).2.2 i hi
    rw [ht] at b1
    have e := Option.some.inj b1
    subst e
    obtain ⟨k, x, _, k1, k2, k3, _⟩ := b4.sink c hl.2
    rw [hl.1] at k1
    have hX := p2.2.2.2.1 k.toNat
    rw [k3] at hX
    have hcast : ((k.toNat : Nat) : Int) = k := Int.toNat_of_nonneg k2
    have hX' : x = accum fp (contrib (niuC fp dev sot curr k.toNat) ts live) 0 := by
      rw [initGrids_niu] at hX
      split at hX
      · exact Option.some.inj hX
      · simp at hX
    have := entry_bound (use := fun t => t.params.noc = noc ∧ t.params.dst = .unicast c) A (limit := R) hcap hlt
      hcurr hs hrep h
      (cnt := fun t => ((loads dev t.params).getD []).count ((k.toNat : Nat) : Int)) hX' (hn _ k1) hR0
      (fun _ _ => Iff.rfl)
      (fun j hj u hu hu2 => by
        obtain ⟨u', hu', ⟨L, hL, _⟩, _⟩ := p1 j hj
        rw [hu] at hu'
        have e := Option.some.inj hu'
        subst e
        rw [hL, hcast]
        exact List.count_pos_iff.mpr (mem_loads_sink hL hu2.2 (by rw [hu2.1]; exact k1)))
      (fun j hj u d hu hu2 L h0 => by
        obtain ⟨i2, x2, a2, y1, y2, y3, y5, y4⟩ := L.sink c hu2.2
        rw [hu2.1, k1] at y1
        rw [← Out.ok.inj y1, k3] at y3
        rw [hR] at y5
        rw [← Option.some.inj y3, ← Out.ok.inj y5] at y4
        exact y4 h0)
    rcases this with h1 | h1
    · exact Or.inl h1
    · exact Or.inr ⟨_, k, k1, k3, h1⟩
  · left
    refine le_of_eq (load_unused (unused_after p3 (fun _ _ => Iff.rfl) ?_))
    intro i hi t ht hu
    exact hex ⟨i, hi, t, ht, hu⟩
end

end NPE
