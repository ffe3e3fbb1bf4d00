import Verif.Proofs.Bwt
import Verif.Props.RIndex
/-! # C27, C38: the BWT, its runs and the LF step on inclusive ranges -/
namespace Sri
set_option autoImplicit false

/-- **C27**, computeBWT: every BWT symbol is reported once, in order; run heads and tails are exactly the positions where a run starts or
    ends, each with the number of its run, its symbol and the text position of that symbol; the result is the number of runs. -/
theorem c27_computeBWT (T sa : List Nat) (hT : IsText T) (hsa : IsSA T sa) :
    ∃ e, computeBWT T.length sa T = some e ∧
      e.bwt = (List.range T.length).map (fun j => (j, (bwtOf T sa).getD j 0)) ∧
      e.first = ((List.range T.length).filter (runStartsAt (bwtOf T sa))).map (fun j => { run := runsBefore (bwtOf T sa) j, pos := j, sym := (bwtOf T sa).getD j 0, textPos := prevPos T (sa.getD j 0) }) ∧
      e.last = ((List.range T.length).filter (runEndsAt (bwtOf T sa))).map (fun j => { run := runsBefore (bwtOf T sa) (j+1) - 1, pos := j, sym := (bwtOf T sa).getD j 0, textPos := prevPos T (sa.getD j 0) }) ∧
      e.runs = runsBefore (bwtOf T sa) T.length := by
  have hl : (bwtOf T sa).length = T.length := by rw [bwtOf, List.length_map, hsa.length]
  have h := computeBWT_eq (xs := bwtOf T sa) (tp := fun j => prevPos T (sa.getD j 0)) (T := T) (sa := sa) (by rw [hl]; exact hT.pos)
    (fun j hj => by rw [hl] at hj ⊢; exact bwtStep_eq hsa hT.pos hj)
  rw [hl] at h
  refine ⟨_, h, rfl, ?_, rfl, rfl⟩
  apply List.map_congr_left
  intro j hj
  have := runsBefore_succ' (bwtOf T sa) j
  rw [(List.mem_filter.1 hj).2] at this
  simp only [reportAt, this, if_true, Nat.add_sub_cancel]

/-- **C27**, constructBWTRuns: the files hold the positions where the runs of the BWT start and end, and the text positions of these symbols. -/
theorem c27_constructBWTRuns (T sa : List Nat) (hT : IsText T) (hsa : IsSA T sa) :
    constructBWTRuns (bwtOf T sa) sa = some
      { first := (List.range T.length).filter (runStartsAt (bwtOf T sa)),
        firstTextPos := ((List.range T.length).filter (runStartsAt (bwtOf T sa))).map (fun j => prevPos T (sa.getD j 0)),
        last := (List.range T.length).filter (runEndsAt (bwtOf T sa)),
        lastTextPos := ((List.range T.length).filter (runEndsAt (bwtOf T sa))).map (fun j => prevPos T (sa.getD j 0)) } := by
  have hl : (bwtOf T sa).length = T.length := by rw [bwtOf, List.length_map, hsa.length]
  have hn := hT.pos
  have htp : ∀ j, j < T.length → bwtTextPos T.length (sa.getD j 0) = prevPos T (sa.getD j 0) := by
    intro j hj
    have hj' : j < sa.length := by rw [hsa.length]; exact hj
    apply bwtTextPos_prev hn
    rw [List.getD_eq_getElem?_getD, List.getElem?_eq_getElem hj', Option.getD_some]
    exact List.mem_range.1 (hsa.1.mem_iff.1 (List.getElem_mem _))
  rw [constructBWTRuns_eq (by intro h; rw [h] at hl; simp at hl; omega) (by rw [hsa.length, hl]), starts_filter, ends_filter, hl]
  congr 2 <;>
  · apply List.map_congr_left
    intro j hj
    exact htp j (List.mem_range.1 (List.mem_filter.1 hj).1)

example : IsText exText ∧ IsSA exText exSA ∧ bwtOf exText exSA = [3,3,2,3,0,1,1,1,1,2,2,2] ∧
    (computeBWT exText.length exSA exText).map (fun e => (e.first.map (·.pos), e.last.map (·.textPos), e.runs)) = some ([0,2,3,4,5,9], [5,7,2,11,0,1], 6) := by
  refine ⟨⟨[1,2,3,1,2,3,1,2,1,2,3], rfl, by decide⟩, ⟨by decide, by decide⟩, ?_, ?_⟩ <;> decide

/-- **C38** The inclusive range LF takes the suffix-array interval `[a, e+1)` of `P` to that of `cP`; `(1,0)` stands for "no occurrence",
    also when the character is not in the text. `rank` and `f` are the functions the caller passes: exact ranks on the BWT and numbers of
    smaller characters, for the characters up to `maxC`; `f (maxC+1)` is needed only when `maxC` occurs. -/
theorem c38_computeLF (T sa : List Nat) (hT : IsText T) (hsa : IsSA T sa) (rank : Nat → Nat → Option Nat) (f : Nat → Option Nat) (maxC : Nat)
    (hr : ∀ i c, i ≤ T.length → c ≤ maxC → rank i c = some (((bwtOf T sa).take i).count c))
    (hf : ∀ c, c ≤ maxC → f c = some (below T c)) (hf1 : maxC ∈ T → f (maxC+1) = some (below T (maxC+1)))
    (hm : ∀ x ∈ T, x ≤ maxC) (P : List Nat) (c a e : Nat) (hc0 : c ≠ 0) (hc : c ≤ maxC) (hae : a ≤ e) (hP : IsInterval P T sa a (e+1)) :
    ∃ l r, computeLF rank f (a, e) c T.length maxC = some (l, r) ∧
      ((l ≤ r ∧ IsInterval (c :: P) T sa l (r+1)) ∨ ((l, r) = (1, 0) ∧ occurrences (c :: P) T = [])) := by
  have hR := (range_iff_interval hsa).1 hP
  have h := computeLF_eq hT hsa hr hf hf1 hm hc (show a ≤ e + 1 by omega) hR.2.1 (by omega)
  have hs := backward_step hT hsa hc0 hR
  rw [Nat.add_sub_cancel] at h
  rw [inclusive] at h
  split at h
  · rename_i hlt
    refine ⟨_, _, h, Or.inl ⟨by omega, ?_⟩⟩
    rw [Nat.sub_add_cancel (by omega), range_iff_interval hsa]
    exact hs
  · rename_i hlt
    refine ⟨_, _, h, Or.inr ⟨rfl, ?_⟩⟩
    rw [occurrences, List.filter_eq_nil_iff]
    intro p hp
    rw [decide_eq_true_iff]
    intro ho
    have hpn : p < T.length := by
      have := ho.1; simp only [List.length_cons] at this; omega
    have := (hs.2.2 (isaOf sa p)).1 ⟨isaOf_lt hsa hpn, by rw [saAt_isaOf hsa hpn]; exact ho⟩
    exact hlt (by unfold cnt; omega)

/-- **C38** The empty range stays empty. -/
theorem c38_empty (T sa : List Nat) (hT : IsText T) (hsa : IsSA T sa) (rank : Nat → Nat → Option Nat) (f : Nat → Option Nat) (maxC : Nat)
    (hr : ∀ i c, i ≤ T.length → c ≤ maxC → rank i c = some (((bwtOf T sa).take i).count c))
    (hf : ∀ c, c ≤ maxC → f c = some (below T c)) (hf1 : maxC ∈ T → f (maxC+1) = some (below T (maxC+1)))
    (hm : ∀ x ∈ T, x ≤ maxC) (c : Nat) (hc : c ≤ maxC) :
    computeLF rank f (1, 0) c T.length maxC = some (1, 0) := by
  have h := computeLF_eq hT hsa hr hf hf1 hm hc (Nat.le_refl 1) hT.pos (Nat.le_refl 1)
  rw [inclusive, if_neg (by omega)] at h
  exact h

/-- **C38** Backward search with the inclusive LF, from the whole range and reading the pattern from right to left, ends with the
    suffix-array interval of the pattern, or with `(1,0)` exactly when it does not occur. -/
theorem c38_search (T sa : List Nat) (hT : IsText T) (hsa : IsSA T sa) (rank : Nat → Nat → Option Nat) (f : Nat → Option Nat) (maxC : Nat)
    (hr : ∀ i c, i ≤ T.length → c ≤ maxC → rank i c = some (((bwtOf T sa).take i).count c))
    (hf : ∀ c, c ≤ maxC → f c = some (below T c)) (hf1 : maxC ∈ T → f (maxC+1) = some (below T (maxC+1)))
    (hm : ∀ x ∈ T, x ≤ maxC) (P : List Nat) (hP : ∀ c ∈ P, c ≠ 0 ∧ c ≤ maxC) :
    ∃ l r, P.reverse.foldlM (fun rg c => computeLF rank f rg c T.length maxC) (0, T.length - 1) = some (l, r) ∧
      ((l ≤ r ∧ IsInterval P T sa l (r+1)) ∨ ((l, r) = (1, 0) ∧ occurrences P T = [])) := by
  have hn := hT.pos
  induction P with
  | nil =>
    refine ⟨0, T.length - 1, rfl, Or.inl ⟨by omega, ?_⟩⟩
    rw [Nat.sub_add_cancel hn, range_iff_interval hsa]; exact isRange_nil hsa
  | cons c P ih =>
    obtain ⟨l, r, h1, h2⟩ := ih (fun d hd => hP d (List.mem_cons_of_mem _ hd))
    have hcc := hP c (by simp)
    rw [List.reverse_cons, List.foldlM_append, h1]
    simp only [List.foldlM_cons, List.foldlM_nil, Option.bind_eq_bind, Option.bind_some, Option.pure_def, Option.bind_fun_some]
    rcases h2 with ⟨h3, h4⟩ | ⟨h3, h4⟩
    · obtain ⟨l', r', h5, h6⟩ := c38_computeLF T sa hT hsa rank f maxC hr hf hf1 hm P c l r hcc.1 hcc.2 h3 h4
      exact ⟨l', r', by simpa using h5, h6⟩
    · refine ⟨1, 0, by rw [h3]; simpa using c38_empty T sa hT hsa rank f maxC hr hf hf1 hm c hcc.2, Or.inr ⟨rfl, ?_⟩⟩
      rw [occurrences, List.filter_eq_nil_iff] at h4 ⊢
      intro p hp
      rw [decide_eq_true_iff]
      rintro ⟨ho1, ho2⟩
      simp only [List.length_cons] at ho1 ho2
      refine h4 (p+1) (List.mem_range.2 (by omega)) (decide_eq_true ⟨by omega, ?_⟩)
      have hp' : p < T.length := by omega
      rw [List.drop_eq_getElem_cons hp', List.take_succ_cons] at ho2
      exact (List.cons.inj ho2).2

/-- the functions a caller with a byte text passes -/
def exRank (i c : Nat) : Option Nat := some (([3,3,2,3,0,1,1,1,1,2,2,2].take i).count c)
def exF (c : Nat) : Option Nat := [0,1,5,9,12,12,12][c]?

example : (∀ i c, i ≤ exText.length → c ≤ 5 → exRank i c = some (((bwtOf exText exSA).take i).count c)) ∧
    (∀ c, c ≤ 5 → exF c = some (below exText c)) ∧ (5 ∈ exText → exF 6 = some (below exText 6)) ∧ (∀ x ∈ exText, x ≤ 5) ∧
    [2,3,1].reverse.foldlM (fun rg c => computeLF exRank exF rg c exText.length 5) (0, exText.length - 1) = some (7, 8) ∧
    [2,1,5].reverse.foldlM (fun rg c => computeLF exRank exF rg c exText.length 5) (0, exText.length - 1) = some (1, 0) ∧
    IsInterval [2,3,1] exText exSA 7 9 := by
  refine ⟨fun i c _ _ => rfl, ?_, ?_, ?_, ?_, ?_, ⟨by decide, by decide, ?_⟩⟩ <;> decide

end Sri
