import Verif.Props.Document
import Verif.Spec.Write

/-
Property C119: the timeline files on the disk.
-/

namespace NPE.Props
open Spec Spec.Write Out

theorem disk_set_self (d : Disk) (n : List Char) (b : Bytes) : (d.set n b).files n = some b := by
  unfold Disk.set
  simp

theorem disk_set_other {d : Disk} {n x : List Char} (b : Bytes) (h : x ≠ n) : (d.set n b).files x = d.files x := by
  unfold Disk.set
  simp [h]

/-- What can happen when a text is compressed and written. -/
theorem compressToFile_cases {lib : Library} {os : Os} {text : Bytes} {name : List Char} {d : Disk}
    (ht : text ≠ []) :
    ∃ ok d', compressToFile lib os text name d = .ok (ok, d') ∧ (∀ x, x ≠ name → d'.files x = d.files x) ∧
      ((∃ c, d'.complaints = d.complaints ++ [c] ∧ ok = false) ∨
        ok = true ∧ d'.complaints = d.complaints ∧ os.opens name = true ∧
        ∃ n b, lib.bound text.length = some n ∧ lib.compress n text = some b ∧ writtenGood os name b = true ∧
          d'.files name = some (b.take (os.takes name b))) := by
  have hpos : 0 < text.length := List.length_pos_of_ne_nil ht
  unfold compressToFile
  rw [decide_eq_true hpos, Out.assert_true, bind_ok]
  cases hb : lib.bound text.length with
  | none => exact ⟨_, _, rfl, fun _ _ => rfl, .inl ⟨_, rfl, rfl⟩⟩
  | some n =>
    simp only
    cases hc : lib.compress n text with
    | none => exact ⟨_, _, rfl, fun _ _ => rfl, .inl ⟨_, rfl, rfl⟩⟩
    | some b =>
      simp only
      unfold openFile
      cases ho : os.opens name with
      | false => exact ⟨_, _, rfl, fun _ _ => rfl, .inl ⟨_, rfl, rfl⟩⟩
      | true =>
        simp only [if_true]
        cases hg : writtenGood os name b with
        | true =>
          refine ⟨_, _, rfl, fun x hx => ?_, .inr ⟨rfl, rfl, trivial, n, b, rfl, hc, hg, disk_set_self _ _ _⟩⟩
          exact (disk_set_other _ hx).trans (disk_set_other _ hx)
        | false =>
          refine ⟨_, _, rfl, fun x hx => ?_, .inl ⟨_, rfl, rfl⟩⟩
          exact (disk_set_other _ hx).trans (disk_set_other _ hx)

/-- C119.  Writing one document ends normally whatever the disk does, if no document has an empty text; at most one
complaint is made, and no other file is touched. -/
theorem C119_total (lib : Library) (os : Os) (compress : Bool) (name : List Char) (j : Json) (d : Disk)
    (hne : ∀ i, lib.dump i j ≠ some []) :
    ∃ d', writeTimeline lib os compress name j d = .ok d' ∧ (∀ x, x ≠ name → d'.files x = d.files x) ∧
      (d'.complaints = d.complaints ∨ ∃ c, d'.complaints = d.complaints ++ [c]) := by
  unfold writeTimeline
  cases compress with
  | true =>
    simp only [if_true]
    cases ht : lib.dump (-1) j with
    | none => exact ⟨_, rfl, fun _ _ => rfl, .inr ⟨_, rfl⟩⟩
    | some text =>
      obtain ⟨ok, d', h, ho, hc⟩ := compressToFile_cases (lib := lib) (os := os) (name := name) (d := d)
        (fun h => hne (-1) (by rw [ht, h]) : text ≠ [])
      simp only
      rw [h]
      refine ⟨_, rfl, ho, ?_⟩
      rcases hc with ⟨c, hc, _⟩ | ⟨_, hc, _⟩
      · exact .inr ⟨c, hc⟩
      · exact .inl hc
  | false =>
    simp only [Bool.false_eq_true, if_false]
    unfold openFile
    cases ho : os.opens name with
    | false => exact ⟨_, rfl, fun _ _ => rfl, .inr ⟨_, rfl⟩⟩
    | true =>
      simp only [if_true]
      cases ht : lib.dump 2 j with
      | none => exact ⟨_, rfl, fun x hx => disk_set_other _ hx, .inr ⟨_, rfl⟩⟩
      | some text =>
        exact ⟨_, rfl, fun x hx => (disk_set_other _ hx).trans (disk_set_other _ hx), .inl rfl⟩

/-- A file that cannot be opened is complained about, and nothing is changed. -/
theorem C119_unopened (lib : Library) (r : Reader) (hl : Lossless lib r) (os : Os) (compress : Bool) (name : List Char)
    (j : Json) (d : Disk) (hp : Printed lib r j) (ho : os.opens name = false) :
    writeTimeline lib os compress name j d = .ok { d with complaints := d.complaints ++ [.opening name] } := by
  unfold writeTimeline
  cases compress with
  | true =>
    obtain ⟨text, ht, hne, _, n, hn⟩ := hp (-1) (.inl rfl)
    obtain ⟨c, hc⟩ := hl.enough text n hn
    simp only [if_true, ht]
    unfold compressToFile openFile
    rw [decide_eq_true (List.length_pos_of_ne_nil hne), Out.assert_true]
    simp only [bind_ok, hn, hc, ho, Bool.false_eq_true, if_false]
    rfl
  | false =>
    simp only [Bool.false_eq_true, if_false]
    unfold openFile
    rw [ho]
    rfl

/-- One document, on a disk that takes it. -/
theorem write_one {lib : Library} {r : Reader} (hl : Lossless lib r) {os : Os} {compress : Bool} {name : List Char}
    {j : Json} {d : Disk} (hp : Printed lib r j) (ha : Accepts os name) :
    ∃ d', writeTimeline lib os compress name j d = .ok d' ∧ d'.complaints = d.complaints ∧
      Holds r compress d' name j ∧ ∀ x, x ≠ name → d'.files x = d.files x := by
  unfold writeTimeline
  cases compress with
  | true =>
    obtain ⟨text, ht, hne, hparse, n, hn⟩ := hp (-1) (.inl rfl)
    obtain ⟨c, hc⟩ := hl.enough text n hn
    have hg : writtenGood os name c = true := decide_eq_true (.inl (ha.2 c))
    simp only [if_true, ht]
    unfold compressToFile openFile
    rw [decide_eq_true (List.length_pos_of_ne_nil hne), Out.assert_true]
    simp only [bind_ok, hn, hc, ha.1, if_true, hg, pure_eq]
    refine ⟨_, rfl, rfl, ⟨c, ?_, ?_⟩, fun x hx => (disk_set_other _ hx).trans (disk_set_other _ hx)⟩
    · unfold putFile
      rw [disk_set_self, List.take_of_length_le (ha.2 c)]
    · show (r.decompress c >>= r.parse) = some j
      rw [hl.back n text c hc]
      exact hparse
  | false =>
    obtain ⟨text, ht, _, hparse, _⟩ := hp 2 (.inr rfl)
    simp only [Bool.false_eq_true, if_false]
    unfold openFile
    rw [ha.1, if_pos rfl]
    simp only [ht]
    refine ⟨_, rfl, rfl, ⟨text, ?_, hparse⟩, fun x hx => (disk_set_other _ hx).trans (disk_set_other _ hx)⟩
    unfold putFile
    rw [disk_set_self, List.take_of_length_le (ha.2 text)]

/-- C119, partial.  If the names differ and the disk takes every file, then afterwards each file holds its document,
no other file has changed, and nothing was complained about. -/
theorem C119_partial (lib : Library) (r : Reader) (hl : Lossless lib r) (os : Os) (compress : Bool)
    (files : List (List Char × Json)) (d : Disk) (hn : (files.map (·.1)).Nodup)
    (hp : ∀ f ∈ files, Printed lib r f.2) (ha : ∀ f ∈ files, Accepts os f.1) :
    ∃ d', writeAll lib os compress files d = .ok d' ∧ d'.complaints = d.complaints ∧
      (∀ f ∈ files, Holds r compress d' f.1 f.2) ∧ ∀ x, x ∉ files.map (·.1) → d'.files x = d.files x := by
  unfold writeAll
  induction files generalizing d with
  | nil => exact ⟨d, rfl, rfl, nofun, fun _ _ => rfl⟩
  | cons f l ih =>
    obtain ⟨hf, hn⟩ := List.nodup_cons.mp hn
    obtain ⟨d1, h1, hc1, ⟨b, hb, hr⟩, ho1⟩ := write_one hl (compress := compress) (d := d) (hp f (List.mem_cons_self ..))
      (ha f (List.mem_cons_self ..))
    obtain ⟨d2, h2, hc2, hh2, ho2⟩ := ih d1 hn (fun g hg => hp g (List.mem_cons_of_mem _ hg))
      fun g hg => ha g (List.mem_cons_of_mem _ hg)
    refine ⟨d2, by rw [foldlM_cons, h1, bind_ok]; exact h2, hc2.trans hc1, ?_, fun x hx => ?_⟩
    · intro g hg
      rcases List.mem_cons.mp hg with rfl | hg
      · exact ⟨b, (ho2 _ hf).trans hb, hr⟩
      · exact hh2 g hg
    · rw [List.map_cons, List.mem_cons, not_or] at hx
      exact (ho2 x hx.2).trans (ho1 x hx.1)

theorem simFiles_nodup {fp : FP} {ho : HashOrder} {ord : List (Int × List Int) → List (Int × List Int)} {api : Api}
    {tc : TimelineConfig} {en : Bool} {wl : Workload} {x : Result × List (List Char × Json)}
    (h : api.runSimFiles fp ho ord tc en wl = .ok x) : (x.2.map (·.1)).Nodup := by
  unfold Api.runSimFiles at h
  rw [bind_eq_ok] at h
  obtain ⟨r, _, h⟩ := h
  match r, h with
  | .inr e, h => rw [← Out.ok.inj h]; exact List.nodup_nil
  | .inl (s, st), h =>
    simp only at h
    rw [bind_eq_ok] at h
    obtain ⟨rep, _, h⟩ := h
    by_cases he : tc.emit = true
    · rw [if_pos he, bind_eq_ok] at h
      obtain ⟨files, hf, h⟩ := h
      rw [← Out.ok.inj h]
      exact C86_distinct _ _ _ _ _ _ _ _ _ hf
    · rw [if_neg he] at h
      rw [← Out.ok.inj h]; exact List.nodup_nil

theorem perfFiles_nodup {fp : FP} {ho : HashOrder} {ord : List (Int × List Int) → List (Int × List Int)} {api : Api}
    {tc : TimelineConfig} {wl : Workload} {x : Result × List (List Char × Json)}
    (h : api.runPerfFiles fp ho ord tc wl = .ok x) : (x.2.map (·.1)).Nodup := by
  unfold Api.runPerfFiles at h
  simp only at h
  rw [bind_eq_ok] at h
  obtain ⟨y, hy, h⟩ := h
  have hn := simFiles_nodup hy
  by_cases hc : api.cfg.estimateCongImpact
  · rw [if_pos hc] at h
    match hy1 : y.1, h with
    | .inr e, h => rw [← Out.ok.inj h]; exact hn
    | .inl st, h =>
      simp only at h
      rw [bind_eq_ok] at h
      obtain ⟨z, _, h⟩ := h
      match hz : z.1, h with
      | .inr _, h => rw [← Out.ok.inj h]; exact hn
      | .inl _, h => rw [← Out.ok.inj h]; exact hn
  · rw [if_neg hc] at h
    rw [← Out.ok.inj h]; exact hn

/-- C119, whole estimates.  On a disk that takes every file an estimate leaves the documents behind, changes no other
file, and returns what it returns without a disk. -/
theorem C119_run_partial (fp : FP) (ho : HashOrder) (ord : List (Int × List Int) → List (Int × List Int)) (api : Api)
    (tc : TimelineConfig) (lib : Library) (r : Reader) (hl : Lossless lib r) (os : Os) (wl : Workload) (d : Disk)
    (res : Result) (files : List (List Char × Json)) (h : api.runNPEFiles fp ho ord tc wl = .ok (res, files))
    (hp : ∀ f ∈ files, Printed lib r f.2) (ha : ∀ f ∈ files, Accepts os f.1) :
    ∃ d', api.runNPEDisk fp ho ord tc lib os wl d = .ok (res, d') ∧ d'.complaints = d.complaints ∧
      (∀ f ∈ files, Holds r tc.compress d' f.1 f.2) ∧ ∀ x, x ∉ files.map (·.1) → d'.files x = d.files x := by
  have hn : (files.map (·.1)).Nodup := by
    unfold Api.runNPEFiles at h
    rw [bind_eq_ok] at h
    obtain ⟨wl', _, h⟩ := h
    rw [bind_eq_ok] at h
    obtain ⟨v, _, h⟩ := h
    cases v with
    | false =>
      have := congrArg Prod.snd (Out.ok.inj h)
      simp only at this
      rw [← this]; exact List.nodup_nil
    | true =>
      simp only [if_true] at h
      cases hf : api.runPerfFiles fp ho ord tc wl' with
      | ok x =>
        rw [hf] at h
        have := perfFiles_nodup hf
        rw [Out.ok.inj h] at this
        exact this
      | exc e =>
        rw [hf] at h
        have := congrArg Prod.snd (Out.ok.inj h)
        simp only at this
        rw [← this]; exact List.nodup_nil
      | _ => rw [hf] at h; exact absurd h nofun
  obtain ⟨d', hd, rest⟩ := C119_partial lib r hl os tc.compress files d hn hp ha
  refine ⟨d', ?_, rest⟩
  unfold Api.runNPEDisk
  rw [h, bind_ok]
  simp only [hd]
  rfl

/-- C119, reading.  On such a disk the file of the given name, read back, is the timeline of the run. -/
theorem C119_reads_partial (fp : FP) (cfg : Config) (dev : Device) (ord : List (Int × List Int) → List (Int × List Int))
    (tc : TimelineConfig) (wl : Workload) (ts : List TState) (rep : Report) (files : List (List Char × Json))
    (chips : List (String × Json)) (hc : chipsSection dev tc.topology = .ok (some chips)) (hleg : tc.legacy = false)
    (h : emitFiles fp cfg dev ord tc wl ts rep = .ok files) (lib : Library) (r : Reader) (hl : Lossless lib r) (os : Os)
    (d : Disk) (hp : ∀ f ∈ files, Printed lib r f.2) (ha : ∀ f ∈ files, Accepts os f.1) :
    ∃ d' b j m, writeAll lib os tc.compress files d = .ok d' ∧ d'.files (tc.fileName tc.base) = some b ∧
      r.read tc.compress b = some j ∧ rep.lookup MESH_DEVICE = some m ∧
      C87_reads fp cfg dev ord ⟨wl, ts, m.stats, m.summary⟩ none j := by
  obtain ⟨m, rs, full, splits, hm, _, hfs, hread, _⟩ :=
    C87_files fp cfg dev ord tc wl ts rep files chips hc hleg h
  obtain ⟨d', hd, _, hh, _⟩ := C119_partial lib r hl os tc.compress files d (C86_distinct _ _ _ _ _ _ _ _ _ h) hp ha
  have hname : full.1 = tc.fileName tc.base := by
    have := emit_names h
    rw [hfs, List.map_cons] at this
    exact (List.cons.inj this).1
  obtain ⟨b, hb, hj⟩ := hh full (by rw [hfs]; exact List.mem_cons_self ..)
  exact ⟨d', b, full.2, m, hd, by rw [← hname]; exact hb, hj, hm, hread⟩

/-- The full claim about failures: whatever the disk does, a file that was not complained about holds its document. -/
def C119_claim (compress : Bool) : Prop :=
  ∀ (lib : Library) (r : Reader), Lossless lib r → ∀ (os : Os) (name : List Char) (j : Json) (d d' : Disk), Printed lib r j →
    writeTimeline lib os compress name j d = .ok d' → d'.complaints = d.complaints → Holds r compress d' name j

/-- Partial, compressed files that are too long for the buffer: this is so. -/
theorem C119_reported_partial (lib : Library) (r : Reader) (hl : Lossless lib r) (os : Os) (name : List Char) (j : Json)
    (d d' : Disk) (hp : Printed lib r j)
    (hlong : ∀ text n b, lib.dump (-1) j = some text → lib.compress n text = some b → os.buffer ≤ b.length)
    (h : writeTimeline lib os true name j d = .ok d') (hc : d'.complaints = d.complaints) :
    Holds r true d' name j := by
  obtain ⟨text, ht, hne, hparse, _⟩ := hp (-1) (.inl rfl)
  unfold writeTimeline at h
  simp only [if_true, ht] at h
  obtain ⟨ok, e, hw, _, hcase⟩ := compressToFile_cases (lib := lib) (os := os) (name := name) (d := d) hne
  rw [hw, bind_ok] at h
  obtain rfl : e = d' := Out.ok.inj h
  rcases hcase with ⟨c, hcc, _⟩ | ⟨_, _, _, n, b, _, hb, hg, hf⟩
  · rw [hcc] at hc
    exact absurd (congrArg List.length hc) (by simp)
  · have hle : b.length ≤ os.takes name b := by
      rcases of_decide_eq_true hg with h1 | h1
      · exact h1
      · exact absurd h1 (Nat.not_lt.mpr (hlong text n b ht hb))
    refine ⟨b, by rw [hf, List.take_of_length_le hle], ?_⟩
    show (r.decompress b >>= r.parse) = some j
    rw [hl.back n text b hb]
    exact hparse

/-- A library that prints numbers in unary, and whose compression puts a byte in front. -/
def toyLibrary : Library where
  dump i j := match j with
    | .int n => some (List.replicate n.toNat 1 ++ [if i = 2 then 0 else 2])
    | _ => none
  bound n := some (n + 1)
  compress n b := if b.length + 1 ≤ n then some (40 :: b) else none

/-- Its reader. -/
def toyReader : Reader where
  decompress
    | 40 :: b => some b
    | _ => none
  parse b := if b = [] then none else some (.int (b.length - 1 : Nat))

theorem toy_lossless : Lossless toyLibrary toyReader where
  back n b c h := by
    unfold toyLibrary at h
    simp only at h
    split at h
    · rw [← Option.some.inj h]; rfl
    · exact absurd h nofun
  enough b n h := by
    have hn : b.length + 1 = n := Option.some.inj h
    exact ⟨40 :: b, if_pos hn.le⟩

theorem toy_printed (n : Nat) : Printed toyLibrary toyReader (.int n) := by
  intro i _
  refine ⟨_, rfl, by simp, ?_, _, rfl⟩
  unfold toyReader
  simp

/-- A disk with one file, and systems that take everything, at most three bytes, or nothing. -/
def oldDisk : Disk := ⟨fun x => if x = "a".toList then some [7] else none, []⟩
def goodOs : Os := ⟨fun _ => true, fun _ b => b.length, 4⟩
def fullOs : Os := ⟨fun _ => true, fun _ _ => 3, 4⟩
def closedOs : Os := ⟨fun _ => false, fun _ _ => 0, 4⟩

/-- Name and content of the files `a` and `b`, and the complaints. -/
def seen : Out Disk → Option (Option Bytes × Option Bytes × List Complaint)
  | .ok d => some (d.files "a".toList, d.files "b".toList, d.complaints)
  | _ => none

example : ∀ f ∈ [("a".toList, Json.int 2), ("b".toList, .int 0)], Printed toyLibrary toyReader f.2 ∧ Accepts goodOs f.1 := by
  intro f hf
  rcases List.mem_cons.mp hf with rfl | hf
  · exact ⟨toy_printed 2, rfl, fun _ => le_rfl⟩
  · rw [List.mem_singleton.mp hf]
    exact ⟨toy_printed 0, rfl, fun _ => le_rfl⟩

example : [seen (writeAll toyLibrary goodOs false [("a".toList, .int 2), ("b".toList, .int 0)] oldDisk),
      seen (writeAll toyLibrary goodOs true [("a".toList, .int 2), ("b".toList, .int 0)] oldDisk),
      seen (writeAll toyLibrary closedOs true [("a".toList, .int 2), ("b".toList, .int 0)] oldDisk),
      seen (writeAll toyLibrary fullOs true [("a".toList, .int 2)] oldDisk),
      seen (writeAll toyLibrary fullOs false [("a".toList, .int 3)] oldDisk)] = [
    some (some [1, 1, 0], some [0], []),
    some (some [40, 1, 1, 2], some [40, 2], []),
    some (some [7], none, [.opening "a".toList, .opening "b".toList]),
    some (some [40, 1, 1], none, [.writing "a".toList]),
    some (some [1, 1, 1], none, [])] := by decide +kernel

/-- Violated for files that are not compressed: nobody looks whether the text could be written. -/
theorem C119_violated : ¬ C119_claim false := by
  intro h
  obtain ⟨b, hb, hr⟩ := h toyLibrary toyReader toy_lossless fullOs "a".toList (.int 3) oldDisk _ (toy_printed 3) rfl rfl
  obtain rfl : [1, 1, 1] = b := Option.some.inj hb
  have : (2 : Int) = 3 := Json.int.inj (Option.some.inj hr)
  exact absurd this (by decide)

/-- Violated for compressed files: an error when the file is closed is not looked at. -/
theorem C119_violated_compressed : ¬ C119_claim true := by
  intro h
  obtain ⟨b, hb, hr⟩ := h toyLibrary toyReader toy_lossless ⟨fun _ => true, fun _ _ => 0, 4096⟩ "a".toList (.int 3) oldDisk
    _ (toy_printed 3) rfl rfl
  obtain rfl : [] = b := Option.some.inj hb
  exact absurd hr nofun

/-- Violated: the estimate succeeds although the timeline that was asked for could not be written at all. -/
theorem C119_violated_result (lib : Library) (os : Os) (fp : FP) (ho : HashOrder)
    (ord : List (Int × List Int) → List (Int × List Int)) (api : Api) (tc : TimelineConfig) (wl : Workload) (d : Disk)
    (rep : Report) (files : List (List Char × Json)) (hne : ∀ i j, lib.dump i j ≠ some [])
    (h : api.runNPEFiles fp ho ord tc wl = .ok (.inl rep, files)) :
    ∃ d', api.runNPEDisk fp ho ord tc lib os wl d = .ok (.inl rep, d') := by
  have hw : ∀ d, ∃ d', writeAll lib os tc.compress files d = .ok d' := by
    clear h
    unfold writeAll
    induction files with
    | nil => exact fun d => ⟨d, rfl⟩
    | cons f l ih =>
      intro d
      obtain ⟨d1, h1, _⟩ := C119_total lib os tc.compress f.1 f.2 d (fun i => hne i _)
      obtain ⟨d2, h2⟩ := ih d1
      exact ⟨d2, by rw [foldlM_cons, h1, bind_ok]; exact h2⟩
  obtain ⟨d', hd⟩ := hw d
  refine ⟨d', ?_⟩
  unfold Api.runNPEDisk
  rw [h, bind_ok]
  simp only [hd]
  rfl

/-- A document that cannot be printed: the compressed file is left as it was, the other one is emptied. -/
theorem C119_unprinted (lib : Library) (os : Os) (name : List Char) (j : Json) (d : Disk) (hn : ∀ i, lib.dump i j = none)
    (ho : os.opens name = true) :
    writeTimeline lib os true name j d = .ok { d with complaints := d.complaints ++ [.exception name] } ∧
    ∃ d', writeTimeline lib os false name j d = .ok d' ∧ d'.files name = some [] := by
  unfold writeTimeline
  simp only [hn, if_true, Bool.false_eq_true, if_false]
  refine ⟨rfl, ?_⟩
  unfold openFile
  rw [if_pos ho]
  exact ⟨_, rfl, disk_set_self _ _ _⟩

example : seen (writeTimeline toyLibrary goodOs true "a".toList .null oldDisk) =
      some (some [7], none, [.exception "a".toList]) ∧
    seen (writeTimeline toyLibrary goodOs false "a".toList .null oldDisk) =
      some (some [], none, [.exception "a".toList]) := by decide +kernel

/-- The empty text is refused, by an exception that the caller does not catch (test_npe_compression.cpp has no such
test). -/
theorem C119_empty (lib : Library) (os : Os) (name : List Char) (d : Disk) :
    compressToFile lib os [] name d = .exc .undef := rfl

/-- The tests of test_npe_compression.cpp: writing twice leaves the second text; a directory that does not exist gives
`false`. -/
theorem C119_tests (lib : Library) (r : Reader) (hl : Lossless lib r) (os : Os) (a b : Bytes) (name : List Char) (d : Disk)
    (ha : a ≠ []) (hb : b ≠ []) (hba : ∃ n, lib.bound a.length = some n) (hbb : ∃ n, lib.bound b.length = some n) :
    (Accepts os name → ∃ d1 d2 c1 c2, compressToFile lib os a name d = .ok (true, d1) ∧ d1.files name = some c1 ∧
      r.decompress c1 = some a ∧ compressToFile lib os b name d1 = .ok (true, d2) ∧ d2.files name = some c2 ∧
      r.decompress c2 = some b) ∧
    (os.opens name = false → ∃ d1, compressToFile lib os a name d = .ok (false, d1) ∧ d1.files = d.files) := by
  have one : Accepts os name → ∀ (t : Bytes) (d : Disk), t ≠ [] → (∃ n, lib.bound t.length = some n) →
      ∃ d1 c, compressToFile lib os t name d = .ok (true, d1) ∧ d1.files name = some c ∧ r.decompress c = some t := by
    intro hacc t d ht ⟨n, hn⟩
    obtain ⟨c, hc⟩ := hl.enough t n hn
    have hg : writtenGood os name c = true := decide_eq_true (.inl (hacc.2 c))
    refine ⟨putFile os name c (d.set name []), c, ?_, ?_, hl.back n t c hc⟩
    · unfold compressToFile openFile
      rw [decide_eq_true (List.length_pos_of_ne_nil ht), Out.assert_true]
      simp only [bind_ok, hn, hc, hacc.1, if_true, hg, pure_eq]
    · unfold putFile
      rw [disk_set_self, List.take_of_length_le (hacc.2 c)]
  refine ⟨fun hacc => ?_, fun ho => ?_⟩
  · obtain ⟨d1, c1, h1, f1, r1⟩ := one hacc a d ha hba
    obtain ⟨d2, c2, h2, f2, r2⟩ := one hacc b d1 hb hbb
    exact ⟨d1, d2, c1, c2, h1, f1, r1, h2, f2, r2⟩
  · obtain ⟨n, hn⟩ := hba
    obtain ⟨c, hc⟩ := hl.enough a n hn
    refine ⟨d.complain (.opening name), ?_, rfl⟩
    unfold compressToFile openFile
    rw [decide_eq_true (List.length_pos_of_ne_nil ha), Out.assert_true]
    simp only [bind_ok, hn, hc, ho, Bool.false_eq_true, if_false, pure_eq]

end NPE.Props
