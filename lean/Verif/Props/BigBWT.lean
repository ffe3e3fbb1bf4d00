import Verif.Model.BigBWT
import Verif.Props.Bwt
/-! # C36: reading the output of Big-BWT -/
namespace Sri
set_option autoImplicit false

/-! ## specification: what the tool writes -/

/-- the five low bytes of a number, lowest first -/
def fiveBytes (x : Nat) : List Nat := [x % 256, x / 256 % 256, x / 256^2 % 256, x / 256^3 % 256, x / 256^4 % 256]

/-- a file of pairs `(j, SA[j])`, five bytes each, for the given BWT positions -/
def pairFile (sa js : List Nat) : List Nat := js.flatMap (fun j => fiveBytes j ++ fiveBytes (sa.getD j 0))

/-- the white-space bytes: tab, line feed, vertical tab, form feed, carriage return and blank -/
def whiteSpace : List Nat := [9, 10, 11, 12, 13, 32]

/-! ## helpers -/

theorem isSpace_iff (c : Nat) : isSpace c = true ↔ c ∈ whiteSpace := by
  simp only [isSpace, whiteSpace, Bool.or_eq_true, beq_iff_eq, Bool.and_eq_true, decide_eq_true_eq, List.mem_cons, List.not_mem_nil, or_false]
  omega

theorem extractByte_filter (l : List Nat) :
    match extractByte l with
    | none => l.filter (fun c => !isSpace c) = []
    | some (c, l') => l.filter (fun c => !isSpace c) = c :: l'.filter (fun c => !isSpace c) ∧ l'.length < l.length := by
  induction l with
  | nil => simp [extractByte]
  | cons c l ih =>
    rw [extractByte]
    by_cases h : isSpace c
    · rw [if_pos h]
      cases he : extractByte l with
      | none => rw [he] at ih; simpa [h] using ih
      | some q => rw [he] at ih; simp only [List.filter_cons, h] ; exact ⟨by simpa using ih.1, by simp; omega⟩
    · rw [if_neg h]; simp [h]

theorem readSymbols_eq (f : Nat) (l : List Nat) (h : l.length < f) : readSymbols f l = l.filter (fun c => !isSpace c) := by
  induction f generalizing l with
  | zero => omega
  | succ f ih =>
    have k := extractByte_filter l
    rw [readSymbols]
    cases he : extractByte l with
    | none => rw [he] at k; exact k.symm
    | some q =>
      rw [he] at k
      dsimp only at k ⊢
      rw [k.1, ih q.2 (by omega)]

theorem bigConstructBWT_eq (file : List Nat) : bigConstructBWT file = file.filter (fun c => !isSpace c) :=
  readSymbols_eq _ _ (by omega)

theorem read5_five {x : Nat} (h : x < 2^40) (l : List Nat) : read5 (fiveBytes x ++ l) = some (x, l) := by
  simp only [fiveBytes, List.cons_append, List.nil_append, read5]
  congr 2
  omega

theorem readRunsLoop_eq (n f : Nat) (sa js : List Nat) (hf : js.length < f) (h : ∀ j ∈ js, j < 2^40 ∧ sa.getD j 0 < 2^40) :
    readRunsLoop n f (pairFile sa js) = (js, js.map (fun j => bwtTextPos n (sa.getD j 0))) := by
  induction js generalizing f with
  | nil =>
    cases f with
    | zero => rfl
    | succ f => rfl
  | cons j js ih =>
    cases f with
    | zero => simp at hf
    | succ f =>
      have hj := h j (by simp)
      have e : pairFile sa (j :: js) = fiveBytes j ++ (fiveBytes (sa.getD j 0) ++ pairFile sa js) := by
        simp [pairFile]
      rw [readRunsLoop, e, read5_five hj.1]
      dsimp only
      rw [read5_five hj.2]
      dsimp only
      rw [ih f (by simpa using hf) (fun k hk => h k (by simp [hk]))]
      simp only [List.map_cons, bwtTextPos]
      congr 2
      split <;> split <;> omega

theorem pairFile_length (sa js : List Nat) : (pairFile sa js).length = 10 * js.length := by
  induction js with
  | nil => rfl
  | cons j js ih => simp only [pairFile, List.flatMap_cons, List.length_append] at ih ⊢; rw [ih]; simp [fiveBytes]; omega

theorem readRuns_eq (n : Nat) (sa js : List Nat) (h : ∀ j ∈ js, j < 2^40 ∧ sa.getD j 0 < 2^40) :
    readRuns n (pairFile sa js) = (js, js.map (fun j => bwtTextPos n (sa.getD j 0))) :=
  readRunsLoop_eq n _ sa js (by rw [pairFile_length]; omega) h

/-! ## the property -/

/-- **C36** fails for white space: of the bytes of the file exactly the white-space bytes are lost, so the BWT that is stored differs from
    the file, for every file that contains one. -/
theorem c36_whitespace_violation (file : List Nat) (h : ∃ c ∈ file, c ∈ whiteSpace) :
    bigConstructBWT file ≠ file ∧ (bigConstructBWT file).length < file.length := by
  obtain ⟨c, hc, hw⟩ := h
  have hlt : (bigConstructBWT file).length < file.length := by
    rw [bigConstructBWT_eq, List.length_filter_lt_length_iff_exists]
    exact ⟨c, hc, by simp [(isSpace_iff c).2 hw]⟩
  exact ⟨fun e => by rw [e] at hlt; omega, hlt⟩

example : ∃ c ∈ [121, 32, 97, 0, 10], c ∈ whiteSpace := by decide
example : bigConstructBWT [121, 32, 97, 0, 10] = [121, 97, 0] := by decide

/-- **C36**, what holds: the stored BWT is the file when the file has no white space (and only then, by `c36_whitespace_violation`).
    Missing: files with white space. -/
theorem c36_read_partial (file : List Nat) (h : ∀ c ∈ file, c ∉ whiteSpace) : bigConstructBWT file = file := by
  rw [bigConstructBWT_eq, List.filter_eq_self]
  intro c hc
  have : isSpace c ≠ true := fun e => h c hc ((isSpace_iff c).1 e)
  simp [this]

/-- **C36**, runs: the run positions read from the files of pairs `(j, SA[j])` are those the other construction computes from the suffix
    array, for every text shorter than 2^40, with white space or not. -/
theorem c36_runs (T sa : List Nat) (hT : IsText T) (hsa : IsSA T sa) (hn : T.length < 2^40) :
    constructBWTRuns (bwtOf T sa) sa = some (bigConstructBWTRuns (bwtOf T sa)
      (pairFile sa ((List.range T.length).filter (runStartsAt (bwtOf T sa))))
      (pairFile sa ((List.range T.length).filter (runEndsAt (bwtOf T sa))))) := by
  have hl : (bwtOf T sa).length = T.length := by rw [bwtOf, List.length_map, hsa.length]
  have hs : ∀ j, j < T.length → sa.getD j 0 < T.length := by
    intro j hj
    have hj' : j < sa.length := by rw [hsa.length]; exact hj
    rw [List.getD_eq_getElem?_getD, List.getElem?_eq_getElem hj', Option.getD_some]
    exact List.mem_range.1 (hsa.1.mem_iff.1 (List.getElem_mem _))
  have hb : ∀ p : Nat → Bool, ∀ j ∈ (List.range T.length).filter p, j < 2^40 ∧ sa.getD j 0 < 2^40 := by
    intro p j hj
    have := List.mem_range.1 (List.mem_filter.1 hj).1
    exact ⟨by omega, by have := hs j this; omega⟩
  have hm : ∀ p : Nat → Bool, ((List.range T.length).filter p).map (fun j => prevPos T (sa.getD j 0)) =
      ((List.range T.length).filter p).map (fun j => bwtTextPos T.length (sa.getD j 0)) := by
    intro p
    apply List.map_congr_left
    intro j hj
    exact (bwtTextPos_prev hT.pos (hs j (List.mem_range.1 (List.mem_filter.1 hj).1))).symm
  rw [c27_constructBWTRuns T sa hT hsa, bigConstructBWTRuns, hl, readRuns_eq _ _ _ (hb _), readRuns_eq _ _ _ (hb _)]
  dsimp only
  rw [hm, hm]

/-- **C36**, the whole cache: for a text without white space both constructions leave the same items, so every index built from either is
    the same index. Missing: texts with white space. -/
theorem c36_base_partial (T sa : List Nat) (hT : IsText T) (hsa : IsSA T sa) (hn : T.length < 2^40) (hw : ∀ c ∈ T, c ∉ whiteSpace) :
    constructBaseBig (bwtOf T sa) (pairFile sa ((List.range T.length).filter (runStartsAt (bwtOf T sa))))
      (pairFile sa ((List.range T.length).filter (runEndsAt (bwtOf T sa)))) = constructBase T sa := by
  have hmem : ∀ c ∈ bwtOf T sa, c ∉ whiteSpace := by
    intro c hc
    rw [bwtOf, List.mem_map] at hc
    obtain ⟨p, hp, rfl⟩ := hc
    have hlt : prevPos T p < T.length := Nat.mod_lt _ hT.pos
    rw [List.getD_eq_getElem?_getD, List.getElem?_eq_getElem hlt, Option.getD_some]
    exact hw _ (List.getElem_mem _)
  have hc : constructBWT T sa = bwtOf T sa := rfl
  simp only [constructBaseBig, constructBase, c36_read_partial _ hmem, hc, c36_runs T sa hT hsa hn, Option.bind_eq_bind, Option.bind_some]

example : (∀ c ∈ exText, c ∉ whiteSpace) ∧ exText.length < 2^40 := by decide
example : (constructBase exText exSA).isSome = true := by decide

/-- **C36**, the consequence of the violation: for every text with a white-space byte the number of symbols the index is built from is not
    the length of the text. -/
theorem c36_base_violation (T sa ssa esa : List Nat) (hT : IsText T) (hsa : IsSA T sa) (hw : ∃ c ∈ T, c ∈ whiteSpace) (b : BaseItems)
    (h : constructBaseBig (bwtOf T sa) ssa esa = some b) : b.n < T.length := by
  have hl : (bwtOf T sa).length = T.length := by rw [bwtOf, List.length_map, hsa.length]
  obtain ⟨c, hc, hcw⟩ := hw
  have hmem : c ∈ bwtOf T sa := by
    obtain ⟨q, hq, rfl⟩ := List.getElem_of_mem hc
    have hn := hT.pos
    rw [bwtOf, List.mem_map]
    refine ⟨(q + 1) % T.length, ?_, ?_⟩
    · exact hsa.1.mem_iff.2 (List.mem_range.2 (Nat.mod_lt _ hn))
    · have e : prevPos T ((q + 1) % T.length) = q := by
        rw [prevPos]; exact mod_succ_pred hq
      rw [e, List.getD_eq_getElem?_getD, List.getElem?_eq_getElem hq, Option.getD_some]
  have hlt := (c36_whitespace_violation _ ⟨c, hmem, hcw⟩).2
  simp only [constructBaseBig, Option.bind_eq_bind, Option.bind_eq_some_iff, Option.pure_def, Option.some.injEq] at h
  obtain ⟨r, -, rfl⟩ := h
  dsimp only
  omega

/-- the text "a b a" with its terminator, and its suffix array -/
def spaceText : List Nat := [97, 32, 98, 32, 97, 0]

example : IsText spaceText ∧ IsSA spaceText [5, 3, 1, 4, 0, 2] ∧ (∃ c ∈ spaceText, c ∈ whiteSpace) ∧
    (constructBaseBig (bwtOf spaceText [5, 3, 1, 4, 0, 2]) [] []).map (·.n) = some 4 := by
  refine ⟨⟨[97, 32, 98, 32, 97], rfl, by decide⟩, ⟨by decide, by decide⟩, by decide, by decide⟩

end Sri
