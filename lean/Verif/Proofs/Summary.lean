import Verif.Spec.Summary
import Verif.Model.Summary
import Verif.Proofs.TotalApi
import Mathlib.Algebra.BigOperators.Group.List.Basic

namespace NPE
open Spec Out

theorem coreIs_iff {dev : Device} {c : Coord} (h : OnGrid dev.rows dev.cols c) (ty ty' : CoreType)
    (hc : dev.getCoreType c = .ok ty) : CoreIs dev ty' c ↔ ty = ty' := by
  have hidx : c.row * dev.cols + c.col = ((c.row.toNat * dev.cols + c.col.toNat : Nat) : Int) := by
    have h1 : ((c.row.toNat : Nat) : Int) = c.row := Int.toNat_of_nonneg h.1.1
    have h2 : ((c.col.toNat : Nat) : Int) = c.col := Int.toNat_of_nonneg h.2.1
    push_cast
    rw [h1, h2]
  have hlt : c.col.toNat < dev.cols := by have := h.2.2; have := h.2.1; omega
  unfold Device.getCoreType at hc
  simp only at hc
  rw [hidx, Int.toNat_natCast] at hc
  split at hc
  · have e := Out.ok.inj hc
    rw [Nat.mul_comm, Nat.mul_add_div (by omega), Nat.div_eq_of_lt hlt, Nat.add_zero, Nat.mul_add_mod,
      Nat.mod_eq_of_lt hlt] at e
    unfold CoreIs
    rw [e]
    exact ⟨fun x => x.2, fun x => ⟨h, x⟩⟩
  · exact absurd hc nofun

theorem countedTransfer_iff (d : Int) (t : Transfer) : countedTransfer d t = true ↔ OfDevice d t := by
  unfold countedTransfer OfDevice
  simp only [Bool.or_eq_true, decide_eq_true_eq]
  exact or_congr Iff.rfl eq_comm

theorem dramBytes_ok {dev : Device} {t : Transfer} {n : Nat} (hs : OnGrid dev.rows dev.cols t.src)
    (he : ∀ e, t.dst = .unicast e → OnGrid dev.rows dev.cols e) (h : dramBytes dev t = .ok n) :
    n = if CoreIs dev .dram t.src ∨ WritesTo dev .dram t then t.totalBytes else 0 := by
  unfold dramBytes at h
  obtain ⟨c, hc, h⟩ := bind_eq_ok.mp h
  have hcs := coreIs_iff hs c .dram hc
  by_cases h1 : c = .dram
  · rw [if_pos h1] at h
    rw [if_pos (Or.inl (hcs.mpr h1)), Out.ok.inj h]
  · rw [if_neg h1] at h
    have hns : ¬ CoreIs dev .dram t.src := fun x => h1 (hcs.mp x)
    cases hd : t.dst with
    | unicast e =>
      rw [hd] at h
      obtain ⟨c', hc', h⟩ := bind_eq_ok.mp h
      have hce := coreIs_iff (he e hd) c' .dram hc'
      have := Out.ok.inj h
      by_cases h2 : c' = .dram
      · rw [if_pos h2] at this
        rw [if_pos (Or.inr ⟨e, hd, hce.mpr h2⟩), this]
      · rw [if_neg h2] at this
        rw [if_neg, this]
        rintro (x | ⟨e', x, y⟩)
        · exact hns x
        · rw [hd] at x
          cases x
          exact h2 (hce.mp y)
    | mcast gs =>
      rw [hd] at h
      rw [if_neg, Out.ok.inj h]
      rintro (x | ⟨e', x, y⟩)
      · exact hns x
      · rw [hd] at x; exact absurd x nofun

theorem dram_sum {dev : Device} {d : Int} {ts : List Transfer} (hg : EndsOnGrid dev ts) {bs : List Nat}
    (h : mapM (dramBytes dev) (ts.filter (countedTransfer d)) = .ok bs) : bs.sum = dramTraffic dev d ts := by
  unfold dramTraffic
  induction ts generalizing bs with
  | nil => 
    have : bs = [] := by rw [mapM_eq_ok] at h; cases h; rfl
    rw [this]; rfl
  | cons t ts ih =>
    have hg' : EndsOnGrid dev ts := fun x hx => hg x (List.mem_cons_of_mem _ hx)
    obtain ⟨h1, h2⟩ := hg t List.mem_cons_self
    by_cases hc : OfDevice d t
    · rw [List.filter_cons_of_pos ((countedTransfer_iff d t).mpr hc), mapM_eq_ok] at h
      cases h with
      | cons hb hbs =>
        rename_i b bs'
        have hb' := dramBytes_ok h1 h2 hb
        have := ih hg' (mapM_eq_ok.mpr hbs)
        rw [List.sum_cons, this, hb']
        by_cases hx : CoreIs dev .dram t.src ∨ WritesTo dev .dram t
        · rw [if_pos hx, List.filter_cons_of_pos (by simp only [decide_eq_true_eq]; exact ⟨hc, hx⟩)]
          rfl
        · rw [if_neg hx, List.filter_cons_of_neg (by simp only [decide_eq_true_eq]; exact fun y => hx y.2)]
          omega
    · rw [List.filter_cons_of_neg (fun x => hc ((countedTransfer_iff d t).mp x))] at h
      rw [List.filter_cons_of_neg (by simp only [decide_eq_true_eq]; exact fun y => hc y.1)]
      exact ih hg' h

/-- The table of bytes per ethernet core after some transfers. -/
structure EthInv (dev : Device) (d : Int) (ts : List Transfer) (m : List (Coord × Nat)) : Prop where
  nodup : (m.map (·.1)).Nodup
  bytes : ∀ e ∈ m, e.2 = writtenTo d e.1 ts
  cores : ∀ c, c ∈ m.map (·.1) ↔ CoreIs dev .eth c ∧ ∃ t ∈ ts, OfDevice d t ∧ t.dst = .unicast c

theorem addBytes_keys (m : List (Coord × Nat)) (c : Coord) (n : Nat) :
    (addBytes m c n).map (·.1) = if c ∈ m.map (·.1) then m.map (·.1) else m.map (·.1) ++ [c] := by
  induction m with
  | nil => simp [addBytes]
  | cons e m ih =>
    unfold addBytes
    by_cases h : e.1 = c
    · rw [if_pos h, if_pos (by rw [← h]; simp)]
      simp [h]
    · rw [if_neg h, List.map_cons, ih]
      by_cases h2 : c ∈ m.map (·.1)
      · rw [if_pos h2, if_pos (by rw [List.map_cons]; exact List.mem_cons_of_mem _ h2)]; rfl
      · rw [if_neg h2, if_neg (by rw [List.map_cons, List.mem_cons]; rintro (x | x); exacts [h x.symm, h2 x])]
        rfl

theorem addBytes_mem {m : List (Coord × Nat)} {c : Coord} {n : Nat} (hn : (m.map (·.1)).Nodup) {e : Coord × Nat}
    (he : e ∈ addBytes m c n) : (e.1 ≠ c ∧ e ∈ m) ∨ (e.1 = c ∧ ∃ k, e.2 = k + n ∧ ((c, k) ∈ m ∨ (k = 0 ∧ c ∉ m.map (·.1)))) := by
  induction m with
  | nil =>
    unfold addBytes at he
    rw [List.mem_singleton] at he
    rw [he]
    exact Or.inr ⟨rfl, 0, by simp, Or.inr ⟨rfl, by simp⟩⟩
  | cons a m ih =>
    unfold addBytes at he
    rw [List.map_cons, List.nodup_cons] at hn
    by_cases h : a.1 = c
    · rw [if_pos h, List.mem_cons] at he
      rcases he with rfl | he
      · exact Or.inr ⟨rfl, a.2, rfl, Or.inl (by rw [← h]; exact List.mem_cons_self)⟩
      · left
        refine ⟨?_, List.mem_cons_of_mem _ he⟩
        intro x
        exact hn.1 (h ▸ x ▸ List.mem_map_of_mem (f := (·.1)) he)
    · rw [if_neg h, List.mem_cons] at he
      rcases he with rfl | he
      · exact Or.inl ⟨h, List.mem_cons_self⟩
      · rcases ih hn.2 he with ⟨x, y⟩ | ⟨x, k, y, z | ⟨z, z'⟩⟩
        · exact Or.inl ⟨x, List.mem_cons_of_mem _ y⟩
        · exact Or.inr ⟨x, k, y, Or.inl (List.mem_cons_of_mem _ z)⟩
        · refine Or.inr ⟨x, k, y, Or.inr ⟨z, ?_⟩⟩
          rw [List.map_cons, List.mem_cons]
          rintro (q | q)
          exacts [h q.symm, z' q]

theorem writtenTo_append (d : Int) (c : Coord) (a b : List Transfer) :
    writtenTo d c (a ++ b) = writtenTo d c a + writtenTo d c b := by
  unfold writtenTo
  rw [List.filter_append, List.map_append, List.sum_append]

theorem writtenTo_one (d : Int) (c : Coord) (t : Transfer) :
    writtenTo d c [t] = if OfDevice d t ∧ t.dst = .unicast c then t.totalBytes else 0 := by
  unfold writtenTo
  by_cases h : OfDevice d t ∧ t.dst = .unicast c
  · rw [if_pos h, List.filter_cons_of_pos (by simpa using h)]; simp
  · rw [if_neg h, List.filter_cons_of_neg (by simpa using h)]; rfl

theorem writtenTo_zero {d : Int} {c : Coord} {ts : List Transfer}
    (h : ¬ ∃ t ∈ ts, OfDevice d t ∧ t.dst = .unicast c) : writtenTo d c ts = 0 := by
  unfold writtenTo
  rw [List.filter_eq_nil_iff.mpr]
  · rfl
  · intro t ht
    simp only [decide_eq_true_eq]
    exact fun x => h ⟨t, ht, x⟩

/-- A transfer that does not matter for the table. -/
theorem EthInv.skip {dev : Device} {d : Int} {pre : List Transfer} {m : List (Coord × Nat)} {t : Transfer}
    (hi : EthInv dev d pre m) (ht : ∀ c, OfDevice d t ∧ t.dst = .unicast c → ¬ CoreIs dev .eth c) :
    EthInv dev d (pre ++ [t]) m := by
  refine ⟨hi.nodup, ?_, ?_⟩
  · intro e he
    rw [writtenTo_append, writtenTo_one, if_neg, Nat.add_zero]
    · exact hi.bytes e he
    · intro x
      exact ht _ x ((hi.cores e.1).mp (List.mem_map_of_mem (f := (·.1)) he)).1
  · intro c
    rw [hi.cores]
    constructor
    · rintro ⟨h1, u, h2, h3⟩
      exact ⟨h1, u, List.mem_append_left _ h2, h3⟩
    · rintro ⟨h1, u, h2, h3⟩
      rcases List.mem_append.mp h2 with h2 | h2
      · exact ⟨h1, u, h2, h3⟩
      · rw [List.mem_singleton] at h2
        rw [h2] at h3
        exact absurd h1 (ht c h3)

theorem ethOne_inv {dev : Device} {d : Int} {pre : List Transfer} {m m' : List (Coord × Nat)} {t : Transfer}
    (hi : EthInv dev d pre m) (ho : OfDevice d t) (he : ∀ e, t.dst = .unicast e → OnGrid dev.rows dev.cols e)
    (h : ethOne dev m t = .ok m') : EthInv dev d (pre ++ [t]) m' := by
  unfold ethOne at h
  cases hd : t.dst with
  | mcast gs =>
    rw [hd] at h
    rw [← Out.ok.inj h]
    exact hi.skip fun c x => by rw [hd] at x; exact absurd x.2 nofun
  | unicast e =>
    rw [hd] at h
    obtain ⟨ty, hty, h⟩ := bind_eq_ok.mp h
    have hce := coreIs_iff (he e hd) ty .eth hty
    have h := Out.ok.inj h
    by_cases h1 : ty = .eth
    swap
    · rw [if_neg h1] at h
      rw [← h]
      refine hi.skip fun c x => ?_
      rw [hd] at x
      cases x.2
      exact fun y => h1 (hce.mp y)
    · rw [if_pos h1] at h
      rw [← h]
      have hkeys := addBytes_keys m e t.totalBytes
      refine ⟨?_, ?_, ?_⟩
      · rw [hkeys]
        split
        · exact hi.nodup
        · rename_i hn
          exact List.nodup_append.mpr ⟨hi.nodup, List.nodup_singleton _, fun a ha b hb => by
            rw [List.mem_singleton] at hb
            rw [hb]
            rintro rfl
            exact hn ha⟩
      · intro x hx
        rw [writtenTo_append, writtenTo_one]
        rcases addBytes_mem hi.nodup hx with ⟨p, q⟩ | ⟨p, k, q, r | ⟨r, r'⟩⟩
        · rw [if_neg (by rw [hd]; rintro ⟨_, y⟩; cases y; exact p rfl), Nat.add_zero]
          exact hi.bytes x q
        · rw [if_pos ⟨ho, by rw [hd, p]⟩, q, p, ← hi.bytes _ r]
        · rw [if_pos ⟨ho, by rw [hd, p]⟩, q, r, p, writtenTo_zero]
          intro y
          exact r' ((hi.cores e).mpr ⟨hce.mpr h1, y⟩)
      · intro c
        rw [hkeys]
        have hc := hi.cores c
        constructor
        · intro hx
          have : c ∈ m.map (·.1) ∨ c = e := by
            split at hx
            · exact Or.inl hx
            · rcases List.mem_append.mp hx with hx | hx
              · exact Or.inl hx
              · exact Or.inr (List.mem_singleton.mp hx)
          rcases this with hx | rfl
          · obtain ⟨p, u, q, r⟩ := hc.mp hx
            exact ⟨p, u, List.mem_append_left _ q, r⟩
          · exact ⟨hce.mpr h1, t, by simp, ho, hd⟩
        · rintro ⟨p, u, q, r⟩
          rcases List.mem_append.mp q with q | q
          · have := hc.mpr ⟨p, u, q, r⟩
            split
            · exact this
            · exact List.mem_append_left _ this
          · rw [List.mem_singleton] at q
            rw [q, hd] at r
            cases r.2
            split
            · assumption
            · simp

theorem eth_table {dev : Device} {d : Int} {ts : List Transfer} (hg : EndsOnGrid dev ts) {m : List (Coord × Nat)}
    (h : foldlM (ethOne dev) [] (ts.filter (countedTransfer d)) = .ok m) : EthInv dev d ts m := by
  suffices ∀ (post pre : List Transfer) (a : List (Coord × Nat)), EndsOnGrid dev post → EthInv dev d pre a →
      foldlM (ethOne dev) a (post.filter (countedTransfer d)) = .ok m → EthInv dev d (pre ++ post) m by
    refine this ts [] [] hg ⟨by simp, by simp, by simp⟩ h
  intro post
  induction post with
  | nil =>
    intro pre a _ hi h
    rw [List.append_nil, ← Out.ok.inj h]
    exact hi
  | cons t post ih =>
    intro pre a hg hi h
    have hg' : EndsOnGrid dev post := fun x hx => hg x (List.mem_cons_of_mem _ hx)
    have hgt := (hg t List.mem_cons_self).2
    rw [show pre ++ t :: post = (pre ++ [t]) ++ post by simp]
    by_cases hc : OfDevice d t
    · rw [List.filter_cons_of_pos ((countedTransfer_iff d t).mpr hc), foldlM_cons] at h
      obtain ⟨a', ha', h⟩ := bind_eq_ok.mp h
      exact ih _ a' hg' (ethOne_inv hi hc hgt ha') h
    · rw [List.filter_cons_of_neg (fun x => hc ((countedTransfer_iff d t).mp x))] at h
      exact ih _ a hg' (hi.skip fun c x => absurd x.1 hc) h

theorem fdiv_num {a b : ℚ} (h : b ≠ 0) : fdiv a b = .num (a / b) := if_neg h

theorem report_mem {dev : Device} {wl : Workload} {st : Stats} {rep : Report} (h : st.report dev wl = .ok rep)
    {d : Int} {r : DevReport} (hr : (d, r) ∈ rep) : computeSummary dev wl d r.stats = .ok r.summary := by
  unfold Stats.report at h
  rw [mapM_eq_ok] at h
  obtain ⟨e, _, he⟩ := forall₂_exists_of_mem_right h hr
  obtain ⟨s, hs, he⟩ := bind_eq_ok.mp he
  have e1 := Out.ok.inj he
  rw [Prod.mk.injEq] at e1
  rw [← e1.1, ← e1.2]
  exact hs

end NPE
