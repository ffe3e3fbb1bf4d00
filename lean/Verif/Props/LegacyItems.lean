import Verif.Proofs.LegacyRerun
import Verif.Props.Legacy
import Verif.Props.Bench
/-! # C65: the items that bm_build_ri_items leaves, and the answers and reports of the indexes that bm_locate puts together from them -/
namespace Sri
set_option autoImplicit false

/-- the text of a data file: its bytes, with 0 written as 2, and the terminator -/
def fileText (bytes : List Nat) : List Nat := bytes.map (fun c => if c = 0 then 2 else c) ++ [0]

/-- a data file that the program handles: not empty, without the bytes 1 and 255, not larger than a 64-bit machine can address -/
def Handled (bytes : List Nat) : Prop := bytes ≠ [] ∧ (∀ c ∈ bytes, c ≠ 1 ∧ c < 255) ∧ bytes.length + 1 < 2 ^ 64

/-- the sampling rates of the program -/
def legacyRates : List Nat := [4, 8, 16, 32, 64, 128, 256, 512]

/-- the three indexes over the loaded items of a rate answer exactly -/
def AnswersExactly (I : LegacyIndex) (T sa : List Nat) : Prop :=
  (CountInclusive I.sampled.count T sa ∧ LocateInclusive I.sampled.locate T sa) ∧
  (CountInclusive I.trustedMarks.count T sa ∧ LocateInclusive I.trustedMarks.locate T sa) ∧
  (CountInclusive I.trustedAreas.count T sa ∧ LocateInclusive I.trustedAreas.locate T sa)

/-- the directory `D` holds all that is needed for the file: for every rate the loaded index answers exactly -/
def Complete (D : LegacyDisk) (bytes sa : List Nat) : Prop :=
  ∀ s ∈ legacyRates, ∃ I, LegacyBuild.load D s = some I ∧ AnswersExactly I (fileText bytes) sa

namespace LegacyBuild

theorem textOf_eq (bytes : List Nat) : textOf bytes = fileText bytes := rfl

theorem fileText_length (bytes : List Nat) : (fileText bytes).length = bytes.length + 1 := by simp [fileText]

theorem fileText_isText (bytes : List Nat) : IsText (fileText bytes) := by
  refine ⟨_, rfl, ?_⟩
  intro c hc
  obtain ⟨x, -, rfl⟩ := List.mem_map.1 hc
  split <;> omega

theorem data_of {bytes : List Nat} (h0 : bytes ≠ []) (h1 : ∀ c ∈ bytes, c < 255) (h2 : bytes.length + 1 < 2 ^ 64) :
    Data (fileText bytes) (suffixArray (fileText bytes)) where
  text := fileText_isText bytes
  isSA := suffixArray_isSA _
  low := by
    intro c hc
    rw [fileText, List.mem_append] at hc
    rcases hc with hc | hc
    · obtain ⟨x, hx, rfl⟩ := List.mem_map.1 hc
      have := h1 x hx
      split <;> omega
    · simp at hc; omega
  two := by
    have := List.length_pos_iff.2 h0
    rw [fileText_length]; omega
  small := by rw [fileText_length]; exact h2

theorem one_not_mem {bytes : List Nat} (h : ∀ c ∈ bytes, c ≠ 1) : 1 ∉ fileText bytes := by
  intro hc
  rw [fileText, List.mem_append] at hc
  rcases hc with hc | hc
  · obtain ⟨x, hx, e⟩ := List.mem_map.1 hc
    have := h x hx
    split at e <;> omega
  · simp at hc

theorem Data.complete {bytes : List Nat} (h : Data (fileText bytes) (suffixArray (fileText bytes))) (h1 : 1 ∉ fileText bytes) (D : LegacyDisk) :
    Complete (fill (ideal (fileText bytes) (suffixArray (fileText bytes))) allKeys D) bytes (suffixArray (fileText bytes)) := by
  intro s hs
  obtain ⟨I, e, ok, -⟩ := load_ok h h1 s (D := fill (ideal (fileText bytes) (suffixArray (fileText bytes))) allKeys D)
    (fun x hx => fill_at (allKeys_rate hs x hx))
  exact ⟨I, e, ok.inclusive ok.simple_all, ok.inclusive (ok.report_all ok.phiMark ok.validMark), ok.inclusive (ok.report_all ok.phiArea ok.validArea)⟩

end LegacyBuild

open LegacyBuild

/-- **C65** (partial): in an empty directory, or with the flag rebuild in any directory, the program runs to its end on every file that it
    handles, with any number of rounds, and the indexes put together from the files it leaves answer exactly, for every rate. Missing: empty
    files, files with the bytes 1 or 255 (below), directories with other files and without rebuild (below). -/
theorem c65_build_partial (bytes : List Nat) (h : Handled bytes) (sa : List Nat) (hsa : IsSA (fileText bytes) sa) (k : Nat) (rebuild : Bool) (D : LegacyDisk)
    (hD : rebuild = true ∨ D = LegacyDisk.empty) : ∃ D', main bytes rebuild k D = some D' ∧ Complete D' bytes sa := by
  have hd := data_of h.1 (fun c hc => (h.2.1 c hc).2) h.2.2
  obtain rfl := hsa.unique (suffixArray_isSA _)
  exact ⟨_, main_all hd rfl rfl k hD, hd.complete (one_not_mem fun c hc => (h.2.1 c hc).1) D⟩

/-- **C65**, files without the byte 0: the answers are those for the file and its terminator -/
theorem c65_build_plain_partial (bytes : List Nat) (h : Handled bytes) (h0 : 0 ∉ bytes) (sa : List Nat) (hsa : IsSA (bytes ++ [0]) sa) (k : Nat) :
    ∃ D', main bytes false k LegacyDisk.empty = some D' ∧ ∀ s ∈ legacyRates, ∃ I, load D' s = some I ∧ AnswersExactly I (bytes ++ [0]) sa := by
  have e : fileText bytes = bytes ++ [0] := by
    rw [fileText]
    congr 1
    conv_rhs => rw [← List.map_id bytes]
    apply List.map_congr_left
    intro c hc
    rw [if_neg (by rintro rfl; exact h0 hc)]
    rfl
  obtain ⟨D', h1, h2⟩ := c65_build_partial bytes h sa (by rw [e]; exact hsa) k false LegacyDisk.empty (Or.inr rfl)
  refine ⟨D', h1, ?_⟩
  rw [← e]
  exact h2

/-- **C65**, the files themselves: the BWT, the positions of its run heads and tails, their text positions, and the F array -/
theorem c65_items_partial (bytes : List Nat) (h0 : bytes ≠ []) (hb : ∀ c ∈ bytes, c < 255) (h64 : bytes.length + 1 < 2 ^ 64) (sa : List Nat)
    (hsa : IsSA (fileText bytes) sa) (k : Nat) :
    ∃ D', main bytes false k LegacyDisk.empty = some D' ∧
      D'.ints .text = fileText bytes ∧ D'.ints .sa = sa ∧ D'.ints .bwt = bwtOf (fileText bytes) sa ∧
      D'.ints .heads = (List.range (fileText bytes).length).filter (runStartsAt (bwtOf (fileText bytes) sa)) ∧
      D'.ints .tails = (List.range (fileText bytes).length).filter (runEndsAt (bwtOf (fileText bytes) sa)) ∧
      D'.ints .headsPos = ((List.range (fileText bytes).length).filter (runStartsAt (bwtOf (fileText bytes) sa))).map (fun j => prevPos (fileText bytes) (sa.getD j 0)) ∧
      D'.ints .tailsPos = ((List.range (fileText bytes).length).filter (runEndsAt (bwtOf (fileText bytes) sa))).map (fun j => prevPos (fileText bytes) (sa.getD j 0)) ∧
      D'.ints .f = (List.range 256).map (below (fileText bytes)) ∧
      ∃ S, D'.rle .bwtRle = some S ∧ S.toString = some ((bwtOf (fileText bytes) sa).map (fun c => if c = 0 then 1 else c)) := by
  have hd := data_of h0 hb h64
  obtain rfl := hsa.unique (suffixArray_isSA _)
  refine ⟨_, main_all hd rfl rfl k (Or.inr rfl), ?_⟩
  generalize suffixArray (fileText bytes) = sa at hd hsa
  generalize fileText bytes = T at hd hsa
  have at_ : ∀ {x : LegacyKey} {l : List Nat}, x ∈ allKeys → ideal T sa x = some (.ints l) → (fill (ideal T sa) allKeys LegacyDisk.empty).ints x = l :=
    fun hx e => ints_of ((fill_at hx).trans e)
  rw [first_pos hsa, last_pos hsa, List.map_map, List.map_map]
  refine ⟨at_ (by decide) rfl, at_ (by decide) rfl, at_ (by decide) rfl, at_ (by decide) rfl, at_ (by decide) rfl, at_ (by decide) rfl,
    at_ (by decide) rfl, at_ (by decide) rfl, ?_⟩
  have hi := hd.ideal_some .bwtRle
  rw [ideal] at hi
  cases hS : RleString.build (LegacyIndex.seq T sa) 2 with
  | none => rw [hS] at hi; cases hi
  | some S =>
    refine ⟨S, ?_, (c41_sequence _ 2 S (by omega) (LegacyIndex.seq_lt hsa hd.low) hS).2.2.1⟩
    rw [LegacyDisk.rle, fill_at (by decide), ideal, hS]; rfl

/-- **C65**, started again in the directory it left: nothing is computed and nothing changes, whatever the data file now holds; with rebuild
    and the same file, the files stay the same. -/
theorem c65_again_partial (bytes : List Nat) (h0 : bytes ≠ []) (hb : ∀ c ∈ bytes, c < 255) (h64 : bytes.length + 1 < 2 ^ 64) (k : Nat) (D' : LegacyDisk)
    (hD : main bytes false k LegacyDisk.empty = some D') :
    (∀ bytes' k', registered false D' = [] ∧ main bytes' false k' D' = some D') ∧ (∀ k', main bytes true k' D' = some D') := by
  have hd := data_of h0 hb h64
  rw [main_all hd rfl rfl k (Or.inr rfl), Option.some.injEq] at hD
  subst hD
  have hr : registered false (fill (ideal (fileText bytes) (suffixArray (fileText bytes))) allKeys LegacyDisk.empty) = [] := by
    rw [hd.registered_fill]; decide
  refine ⟨fun bytes' k' => ⟨hr, ?_⟩, fun k' => ?_⟩
  · rw [main, hr]; rfl
  · rw [main_all hd rfl rfl k' (Or.inl rfl), fill_fill]
    exact congrArg some (fill_congr _ _ (fun x hx => (List.mem_append.1 hx).elim id id) (fun x hx => List.mem_append_left _ hx))

/-- **C65**, reports: the loops of bm_locate over a file of patterns, one on each line. The total is the number of occurrences, the file of
    results lists every pattern with its occurrences in text order, for each of the three indexes of every rate. -/
theorem c65_reports_partial (bytes : List Nat) (h : Handled bytes) (k : Nat) (file : List Nat) (lines : List (List Nat)) (hfile : IsLines file lines)
    (hlines : ∀ l ∈ lines, ∀ c ∈ l, c ≠ 0 ∧ c < 256) :
    ∃ D' ps, main bytes false k LegacyDisk.empty = some D' ∧ Bench.readPatterns (some file) "PLAIN".toList = .patterns ps ∧
      ∀ s ∈ legacyRates, ∃ I, load D' s = some I ∧ ∀ locate ∈ [I.sampled.locate, I.trustedMarks.locate, I.trustedAreas.locate], ∀ iters,
        Bench.macroLocate locate ps (iters + 1) = some (totalOccurrences (fileText bytes) ((lines.filter (fun l => !l.isEmpty)).map (fun l => (l, l)))) ∧
        Bench.printLocate locate ps (iters + 1) = some (locateReport (fileText bytes) ((lines.filter (fun l => !l.isEmpty)).map (fun l => (l, l))),
          totalOccurrences (fileText bytes) ((lines.filter (fun l => !l.isEmpty)).map (fun l => (l, l)))) := by
  obtain ⟨D', h1, h2⟩ := c65_build_partial bytes h _ (suffixArray_isSA _) k false LegacyDisk.empty (Or.inr rfl)
  refine ⟨D', _, h1, c62_plain file lines hfile, ?_⟩
  intro s hs
  obtain ⟨I, e, a1, a2, a3⟩ := h2 s hs
  refine ⟨I, e, ?_⟩
  intro locate hl iters
  have hL : LocateInclusive locate (fileText bytes) (suffixArray (fileText bytes)) := by
    simp only [List.mem_cons, List.not_mem_nil, or_false] at hl
    rcases hl with rfl | rfl | rfl
    · exact a1.2
    · exact a2.2
    · exact a3.2
  have hall : Bench.LocatesAll locate (fileText bytes) ((lines.filter (fun l => !l.isEmpty)).map (fun l => (⟨l, l⟩ : Bench.Pattern))) := by
    intro p hp
    obtain ⟨l, hl, rfl⟩ := List.mem_map.1 hp
    rw [List.mem_filter] at hl
    obtain ⟨a, b, -, e1, e2⟩ := hL l ⟨by rintro rfl; exact absurd hl.2 (by simp), hlines l hl.1⟩
    exact ⟨_, e1, e2⟩
  have hw : (0 : Nat) < W64 := by unfold W64; decide
  have hpair : ((lines.filter (fun l => !l.isEmpty)).map (fun l => (⟨l, l⟩ : Bench.Pattern))).map Bench.pairOf = (lines.filter (fun l => !l.isEmpty)).map (fun l => (l, l)) := by
    rw [List.map_map]; rfl
  have htot := Bench.total_eq (fileText bytes) ((lines.filter (fun l => !l.isEmpty)).map (fun l => (⟨l, l⟩ : Bench.Pattern)))
  rw [hpair] at htot
  constructor
  · rw [Bench.macroLocate, Bench.macroBody_of _ 0 hw hall, Bench.rounds_const _ _ _ (by omega), htot, Nat.zero_add]; rfl
  · rw [Bench.printLocate, Bench.printBody_of _ [] 0 hw hall, Bench.rounds_const _ _ _ (by omega), htot, hpair, Nat.zero_add]; rfl

/-! ### concrete cases -/

/-- the file of exByteText -/
def exFile : List Nat := [2,3,4,2,3,4,2,3,2,3,4]

example : Handled exFile ∧ 0 ∉ exFile := by unfold Handled; decide
example : Handled [7, 0, 7] := by unfold Handled; decide
example : ((main exFile false 2 LegacyDisk.empty).bind (load · 4)).bind (·.sampled.locate [2,3]) = some [0, 3, 8, 6] := by decide +kernel
example : ((main exFile false 0 LegacyDisk.empty).bind (load · 8)).bind (·.trustedAreas.locate [3,4]) = some [1, 4, 9] := by decide +kernel
example : ((main exFile false 0 LegacyDisk.empty).bind (load · 8)).bind (·.trustedMarks.count [3,4]) = some (6, 8) := by decide +kernel
example : ((main exFile false 0 LegacyDisk.empty).map (·.ints (.areas 8))) = some [2, 2] := by decide +kernel
-- a report
example : ((main exFile false 0 LegacyDisk.empty).bind (load · 4)).bind (fun I => Bench.macroLocate I.trustedAreas.locate [⟨[3,4],[3,4]⟩, ⟨[9],[9]⟩] 3) = some 3 := by
  decide +kernel

/-! ### stopped and started again -/

/-- **C65**, stopped between two benchmarks and started again: if the first `n` of the 22 benchmarks were done, with `n` at most 8, from 14 to 16,
    or all, the second run does what is left. -/
theorem c65_restart_partial (bytes : List Nat) (h : Handled bytes) (sa : List Nat) (hsa : IsSA (fileText bytes) sa) (k k' n : Nat)
    (hn : n ≤ 8 ∨ 14 ≤ n ∧ n ≤ 16 ∨ 22 ≤ n) :
    ∃ D D', runSteps bytes k ((registered false LegacyDisk.empty).take n) LegacyDisk.empty = some D ∧ main bytes false k' D = some D' ∧
      main bytes false k LegacyDisk.empty = some D' ∧ Complete D' bytes sa := by
  have hd := data_of h.1 (fun c hc => (h.2.1 c hc).2) h.2.2
  obtain rfl := hsa.unique (suffixArray_isSA _)
  exact ⟨_, _, stopped hd rfl rfl k n, restart_safe hd rfl rfl k' n hn, main_all hd rfl rfl k (Or.inr rfl), hd.complete (one_not_mem fun c hc => (h.2.1 c hc).1) _⟩

/-- **C65** violated: stopped while the tails are sampled, after the rate 16: every later run takes the tails for done and reads past the
    end of a list. For every file. -/
theorem c65_restart_fault_violation (bytes : List Nat) (h0 : bytes ≠ []) (hb : ∀ c ∈ bytes, c < 255) (h64 : bytes.length + 1 < 2 ^ 64) (k k' n : Nat)
    (hn : 9 ≤ n ∧ n ≤ 13) :
    ∃ D, runSteps bytes k ((registered false LegacyDisk.empty).take n) LegacyDisk.empty = some D ∧ main bytes false k' D = none := by
  have hd := data_of h0 hb h64
  exact ⟨_, stopped hd rfl rfl k n, restart_fault hd rfl rfl k' n hn.1 hn.2⟩

/-- **C65** violated: stopped while the heads are sampled, after the rate 16: every later run ends at once and reports success, and the files of
    the rates that were not reached stay missing. For every file. -/
theorem c65_restart_skip_violation (bytes : List Nat) (h0 : bytes ≠ []) (hb : ∀ c ∈ bytes, c < 255) (h64 : bytes.length + 1 < 2 ^ 64) (k n : Nat)
    (hn : 17 ≤ n ∧ n ≤ 21) :
    ∃ D, runSteps bytes k ((registered false LegacyDisk.empty).take n) LegacyDisk.empty = some D ∧ (∀ k', main bytes false k' D = some D) ∧
      D (.areas 512) = none ∧ D (.headsSampledBvSd 512) = none ∧ D (.tailsByHeadS 512) = none := by
  have hd := data_of h0 hb h64
  obtain ⟨e1, e2⟩ := skipped_plan n hn.1 (by omega)
  obtain ⟨f1, f2, f3⟩ := e2 (by omega)
  refine ⟨_, stopped hd rfl rfl k n, ?_, if_neg f1, if_neg f2, if_neg f3⟩
  intro k'
  rw [main, hd.registered_fill, e1]; rfl

-- the indexes of the missing rates then fault on a pattern of the text
example : ((runSteps exFile 0 ((registered false LegacyDisk.empty).take 19) LegacyDisk.empty).bind (main exFile false 0)).bind (load · 16) ≠ none := by
  decide +kernel
example : (((runSteps exFile 0 ((registered false LegacyDisk.empty).take 19) LegacyDisk.empty).bind (main exFile false 0)).bind (load · 512)).bind
    (·.trustedMarks.locate [2]) = none := by decide +kernel

/-! ### files and directories that are not handled -/

/-- **C65** violated: an empty file; the program reads past the end of a list. -/
theorem c65_empty_file_violation (k : Nat) : main [] false k LegacyDisk.empty = none := by
  rw [main, runSteps_rounds]
  decide +kernel

/-- **C65** violated: every file with the byte 255; the counting of the symbols writes past the end of its table. -/
theorem c65_byte_255_violation (bytes : List Nat) (h : 255 ∈ bytes) (k : Nat) (rebuild : Bool) (D : LegacyDisk) (hD : rebuild = true ∨ D = LegacyDisk.empty) :
    main bytes rebuild k D = none := main_255 hD (fileText_isText bytes) (suffixArray_isSA _) h

example : 255 ∈ [2, 255, 3] := by decide

/-- **C65** violated: a BWT file of the library (same key, same name) in the directory, and none of the files of this program: it takes the BWT for done,
    finds no heads and tails, and reads past the end of a list. For every file and every content of the BWT, and whatever other files there are. -/
theorem c65_foreign_bwt_violation (bytes : List Nat) (k : Nat) (D : LegacyDisk) (h1 : D .bwt ≠ none) (h2 : D .headsPosVec = none)
    (h3 : D .headsSortedVec = none) (h4 : D (.tailsSampled 16) = none) : main bytes false k D = none := main_foreign h1 h2 h3 h4

example : ∃ D : LegacyDisk, D .bwt ≠ none ∧ D .headsPosVec = none ∧ D .headsSortedVec = none ∧ D (.tailsSampled 16) = none :=
  ⟨LegacyDisk.empty.store .bwt (.ints [3, 0, 3]), by decide, by decide, by decide, by decide⟩

/-- **C65** violated: the data file changes after a run. The next run keeps all the files of the old one, and the indexes answer for the old text. -/
theorem c65_changed_file_violation (old new : List Nat) (h : Handled old) (k k' : Nat) :
    ∃ D, main old false k LegacyDisk.empty = some D ∧ main new false k' D = some D ∧ Complete D old (suffixArray (fileText old)) := by
  obtain ⟨D, h1, h2⟩ := c65_build_partial old h _ (suffixArray_isSA _) k false LegacyDisk.empty (Or.inr rfl)
  exact ⟨D, h1, ((c65_again_partial old h.1 (fun c hc => (h.2.1 c hc).2) h.2.2 k D h1).1 new k').2, h2⟩

/-- **C65** violated: the byte 0 becomes 2. Every position of a byte 0 of the file is reported for the pattern 2. -/
theorem c65_byte_zero_violation (bytes : List Nat) (h : Handled bytes) (k : Nat) :
    ∃ D', main bytes false k LegacyDisk.empty = some D' ∧ ∀ s ∈ legacyRates, ∃ I l, load D' s = some I ∧ I.sampled.locate [2] = some l ∧
      ∀ p, bytes[p]? = some 0 → p ∈ l := by
  obtain ⟨D', h1, h2⟩ := c65_build_partial bytes h _ (suffixArray_isSA _) k false LegacyDisk.empty (Or.inr rfl)
  refine ⟨D', h1, ?_⟩
  intro s hs
  obtain ⟨I, e, a1, -, -⟩ := h2 s hs
  obtain ⟨a, b, -, e1, e2⟩ := a1.2 [2] ⟨by simp, by simp⟩
  refine ⟨I, _, e, e1, ?_⟩
  intro p hp
  have hlt := (List.getElem?_eq_some_iff.1 hp).1
  rw [e2.mem_iff, occurrences, List.mem_filter]
  refine ⟨by rw [List.mem_range, fileText_length]; omega, ?_⟩
  rw [decide_eq_true_eq]
  refine ⟨by rw [fileText_length]; simp; omega, ?_⟩
  have hget : (fileText bytes)[p]? = some 2 := by
    rw [fileText, List.getElem?_append_left (by simpa using hlt), List.getElem?_map, hp]; rfl
  rw [List.drop_eq_getElem_cons (by rw [fileText_length]; omega)]
  have := (List.getElem?_eq_some_iff.1 hget).2
  simp [this]

example : ((main [2, 0, 3] false 0 LegacyDisk.empty).bind (load · 4)).bind (·.sampled.locate [2]) = some [1, 0] := by decide +kernel

theorem occurrences_one (c : Nat) (T : List Nat) : (occurrences [c] T).length = T.count c := by
  have h1 : ∀ p, p < T.length → (OccursAt [c] T p ↔ T.getD p 0 = c) := by
    intro p hp
    rw [OccursAt, List.drop_eq_getElem_cons hp, List.getD_eq_getElem?_getD, List.getElem?_eq_getElem hp]
    show p + 1 ≤ T.length ∧ [T[p]] = [c] ↔ T[p] = c
    constructor
    · rintro ⟨-, h⟩; exact List.head_eq_of_cons_eq h
    · intro h; exact ⟨hp, by rw [h]⟩
  have h2 : ¬ OccursAt [c] T T.length := by
    intro h
    have := h.1
    simp at this
  rw [occurrences, List.range_succ, List.filter_append]
  rw [show List.filter (fun p => decide (OccursAt [c] T p)) [T.length] = [] by simp [h2], List.append_nil, ← List.countP_eq_length_filter]
  conv_rhs => rw [show T = (List.range T.length).map (fun i => T.getD i 0) from by
    apply List.ext_getElem
    · simp
    · intro i h3 h4
      simp [List.getD_eq_getElem?_getD, List.getElem?_eq_getElem h3]]
  rw [List.count, List.countP_map]
  apply List.countP_congr
  intro p hp
  rw [List.mem_range] at hp
  simp [h1 p hp]

/-- **C65** violated: a file with the byte 1, which rle_string cannot tell from the terminator. For every such file and every rate, the program runs
    to its end, and Count of the pattern 1 reports one position too many. -/
theorem c65_byte_one_violation (bytes : List Nat) (h1 : 1 ∈ bytes) (hb : ∀ c ∈ bytes, c < 255) (h64 : bytes.length + 1 < 2 ^ 64) (k : Nat) :
    ∃ D', main bytes false k LegacyDisk.empty = some D' ∧ ∀ s ∈ legacyRates, ∃ I, load D' s = some I ∧
      I.sampled.count [1] = some (1, 1 + bytes.count 1) ∧ I.trustedMarks.count [1] = some (1, 1 + bytes.count 1) ∧
      I.trustedAreas.count [1] = some (1, 1 + bytes.count 1) ∧ (occurrences [1] (fileText bytes)).length = bytes.count 1 ∧
      ¬ CountInclusive I.sampled.count (fileText bytes) (suffixArray (fileText bytes)) := by
  have hd := data_of (List.ne_nil_of_mem h1) hb h64
  have hcount : (fileText bytes).count 1 = bytes.count 1 := by
    rw [fileText, List.count_append, show List.count 1 [0] = 0 by decide, Nat.add_zero, List.count, List.countP_map]
    apply List.countP_congr
    intro c _
    simp only [Function.comp, beq_iff_eq]
    split <;> omega
  have hpos : 0 < bytes.count 1 := List.count_pos_iff.2 h1
  have hocc : (occurrences [1] (fileText bytes)).length = bytes.count 1 := by rw [occurrences_one, hcount]
  refine ⟨_, main_all hd rfl rfl k (Or.inr rfl), ?_⟩
  intro s hs
  rw [← hcount] at hocc hpos ⊢
  generalize hsa' : suffixArray (fileText bytes) = sa at hd
  generalize fileText bytes = T at hd hocc hpos
  have hn := hd.text.pos
  have hi := hd.ideal_some .bwtRle
  rw [ideal] at hi
  cases hS : RleString.build (LegacyIndex.seq T sa) 2 with
  | none => rw [hS] at hi; cases hi
  | some S =>
    obtain ⟨q1, -, -, q4, -, q6, -⟩ := c41_sequence _ 2 S (by omega) (LegacyIndex.seq_lt hd.isSA hd.low) hS
    rw [LegacyIndex.seq_length hd.isSA] at q1 q6
    have hlast : T.length - 1 < (LegacyIndex.seq T sa).length := by rw [LegacyIndex.seq_length hd.isSA]; omega
    have e1 : (fill (ideal T sa) allKeys LegacyDisk.empty).rle .bwtRle = some S := by
      rw [LegacyDisk.rle, fill_at (by decide), ideal, hS]; rfl
    have e2 : (fill (ideal T sa) allKeys LegacyDisk.empty).ints .f = (List.range 256).map (below T) := ints_of (fill_at (by decide))
    have hperm : (bwtOf T sa).Perm T := bwt_mem hd.text hd.isSA
    have h0 : T.count 0 = 1 := by
      obtain ⟨u, rfl, hu⟩ := hd.text
      rw [List.count_append, List.count_eq_zero_of_not_mem (fun hc => hu 0 hc rfl)]
      rfl
    have hb1 : below T 1 = T.count 0 := by
      rw [below, List.count]
      apply List.countP_congr
      intro c _
      simp only [decide_eq_true_eq, beq_iff_eq]
      omega
    have hb2 : below T 2 = T.count 0 + T.count 1 := by
      clear * -
      unfold below List.count
      induction T with
      | nil => rfl
      | cons x l ih =>
        rw [List.countP_cons, List.countP_cons, List.countP_cons, ih]
        have : (if decide (x < 2) = true then 1 else 0) = (if (x == 0) = true then 1 else 0) + (if (x == 1) = true then 1 else 0) := by
          have : x = 0 ∨ x = 1 ∨ 2 ≤ x := by omega
          rcases this with rfl | rfl | h
          · rfl
          · rfl
          · have a : ¬ x < 2 := by omega
            have b : x ≠ 0 := by omega
            have c : x ≠ 1 := by omega
            simp [a, b, c]
        omega
    have hr : (LegacyIndex.seq T sa).count 1 = T.count 0 + T.count 1 := by
      rw [← hperm.count_eq, ← hperm.count_eq, LegacyIndex.seq]
      clear * -
      generalize bwtOf T sa = l
      induction l with
      | nil => rfl
      | cons x l ih =>
        rw [List.map_cons, List.count_cons, List.count_cons, List.count_cons, ih, LegacyIndex.writeTerminator]
        have : x = 0 ∨ x = 1 ∨ 2 ≤ x := by omega
        rcases this with rfl | rfl | h
        · simp; omega
        · simp; omega
        · have b : x ≠ 0 := by omega
          have c : x ≠ 1 := by omega
          simp [b, c]
    rw [h0] at hb1 hb2 hr
    have hf : ∀ c, c < 256 → ((List.range 256).map (below T))[c]? = some (below T c) := by
      intro c hc
      rw [List.getElem?_map, List.getElem?_range hc]; rfl
    have hlen : ((List.range 256).map (below T)).length = 256 := by rw [List.length_map, List.length_range]
    -- the step with the character 1 from the full range
    have hlf : ∀ I : LegacyIndex, I.rle = S → I.f = (List.range 256).map (below T) → I.lf (0, T.length - 1) 1 = some (1, 1 + T.count 1) := by
      intro I r1 r2
      rw [LegacyIndex.lf, r1, r2, hlen]
      unfold computeLF
      simp only [hf 1 (by omega), hf 2 (by omega), hb1, hb2, Option.bind_eq_bind, Option.bind_some]
      rw [if_neg (by omega), if_neg (by omega), q6 0 1 (by omega) (by omega), show T.length - 1 + 1 = T.length by omega,
        q6 T.length 1 (Nat.le_refl _) (by omega)]
      rw [show T.length = (LegacyIndex.seq T sa).length from (LegacyIndex.seq_length hd.isSA).symm, List.take_length, hr]
      simp only [List.take_zero, List.count_nil, Option.bind_some, csub, Nat.zero_le, if_true, Nat.sub_zero, Option.pure_def]
      rw [if_neg (by omega)]
      congr 2
      omega
    have hc : ∀ (I : LegacyIndex) g, I.rle = S → I.f = (List.range 256).map (below T) → (I.functors g).count [1] = some (1, 1 + T.count 1) := by
      intro I g r1 r2
      have hsz : I.rle.size = T.length := by rw [r1, q1]
      unfold Functors.count
      simp only [List.reverse_cons, List.reverse_nil, List.nil_append, Functors.countLoop, LegacyIndex.functors, hsz]
      rw [if_neg (by simp), hlf I r1 r2]
      simp only [Option.bind_eq_bind, Option.bind_some, Option.pure_def]
    refine ⟨_, by rw [load, e1, Option.bind_eq_bind, Option.bind_some, show csub S.size 1 = some (T.length - 1) by rw [q1, csub, if_pos (by omega)],
      Option.bind_eq_bind, Option.bind_some, q4 _ hlast, Option.bind_some]; rfl, ?_, ?_, ?_, hocc, ?_⟩
    · exact hc _ _ rfl e2
    · exact hc _ _ rfl e2
    · exact hc _ _ rfl e2
    · intro hci
      obtain ⟨a, b, hi, e⟩ := hci [1] ⟨by simp, by simp⟩
      rw [show LegacyIndex.sampled _ = LegacyIndex.functors _ _ from rfl, hc _ _ rfl e2, Option.some.injEq] at e
      have hl := (values_perm hd.isSA (by simp : ([1] : List Nat) ≠ []) ((range_iff_interval hd.isSA).1 hi)).length_eq
      rw [hocc] at hl
      split at e
      · rw [Prod.mk.injEq] at e
        simp [valuesUp] at hl
        omega
      · rw [Prod.mk.injEq] at e
        omega

-- Locate is wrong too, or reads past the end
example : ((main [1, 2, 1, 1, 3, 1, 1, 2] false 0 LegacyDisk.empty).bind (load · 4)).bind (·.sampled.locate [1]) = some [5, 7, 3, 6, 2, 5] := by decide +kernel
example : occurrences [1] (fileText [1, 2, 1, 1, 3, 1, 1, 2]) = [0, 2, 3, 5, 6] := by decide +kernel
example : ((main [1, 2] false 0 LegacyDisk.empty).bind (load · 8)).bind (·.sampled.locate [1]) = none := by decide +kernel

/-- **C65** violated: the index with one sample per run, put together from these files, lists the last entries of the suffix array for every pattern
    (C50), unless the text position 0 is the last suffix. -/
theorem c65_r_index_violation (bytes : List Nat) (h : Handled bytes) (sa : List Nat) (hsa : IsSA (fileText bytes) sa)
    (hz : sa[(fileText bytes).length - 1]? ≠ some 0) (k : Nat) :
    ∃ D' I, main bytes false k LegacyDisk.empty = some D' ∧ loadR D' = some I ∧ CountInclusive I.functors.count (fileText bytes) sa ∧
      ∀ P, BytePattern P → ∃ a b, IsInterval P (fileText bytes) sa a b ∧
        I.functors.locate P = some (saSlice sa ((fileText bytes).length - (b - a)) (fileText bytes).length).reverse := by
  have hd := data_of h.1 (fun c hc => (h.2.1 c hc).2) h.2.2
  have h1 := one_not_mem (fun c hc => (h.2.1 c hc).1)
  obtain rfl := hsa.unique (suffixArray_isSA _)
  obtain ⟨I, e, ok⟩ := loadR_ok hd h1 (D := fill (ideal (fileText bytes) (suffixArray (fileText bytes))) allKeys LegacyDisk.empty)
    (fun x hx => fill_at (by revert x; decide))
  refine ⟨_, I, main_all hd rfl rfl k (Or.inr rfl), e, ?_⟩
  have hn := hd.text.pos
  have hz' : 0 < saAt (suffixArray (fileText bytes)) ((fileText bytes).length - 1) := by
    have hl : (fileText bytes).length - 1 < (suffixArray (fileText bytes)).length := by rw [hsa.length]; omega
    rw [List.getElem?_eq_getElem hl] at hz
    rw [saAt, List.getD_eq_getElem?_getD, List.getElem?_eq_getElem hl]
    simp only [ne_eq, Option.some_inj] at hz
    simp only [Option.getD_some]
    omega
  constructor
  · intro P hP
    obtain ⟨a, b, e1, e2, -⟩ := ok.dropped_search hP.1 hP.2 hz'
    exact ⟨a, b, (range_iff_interval hsa).2 e1, e2⟩
  · intro P hP
    obtain ⟨a, b, e1, -, e3⟩ := ok.dropped_search hP.1 hP.2 hz'
    exact ⟨a, b, (range_iff_interval hsa).2 e1, by rw [e3, valuesDown_eq hsa (Nat.le_refl _)]⟩

example : ((main exFile false 0 LegacyDisk.empty).bind loadR).bind (·.functors.locate [2,3]) = some [2, 5, 10, 1] := by decide +kernel

end Sri
