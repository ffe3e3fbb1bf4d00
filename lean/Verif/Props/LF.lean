import Verif.Proofs.LF
import Verif.Proofs.Bwt
import Verif.Props.RIndex
/-! # C53: one step of the backward search (lf.h) -/
namespace Sri
set_option autoImplicit false

/-- `[a,e)` holds exactly the suffix-array positions of the suffixes that start one character before a suffix of `[f,l)` preceded by `c`
    (the character before the whole text is its terminator). -/
def StepsBack (T sa : List Nat) (c f l a e : Nat) : Prop :=
  ∀ i, (a ≤ i ∧ i < e) ↔ ∃ j p, f ≤ j ∧ j < l ∧ sa[j]? = some p ∧ T[prevPos T p]? = some c ∧ sa[i]? = some (prevPos T p)

/-- what is claimed of an LF step of the text `T`: it is defined for every range `f,l` with ends up to `n`, ordered or not; the new range
    is exact; it is empty when `c` does not precede a suffix of the range; and the suffix-array interval of `P` is taken to that of `cP`. -/
def StepExact (step : Nat × Nat → Nat → Option (Nat × Nat)) (comp : Nat → Nat) (T sa : List Nat) : Prop :=
  ∀ c f l, c ∈ T → f ≤ T.length → l ≤ T.length → ∃ a e, step (f, l) (comp c) = some (a, e) ∧ a ≤ T.length ∧ e ≤ T.length ∧
    StepsBack T sa c f l a e ∧ (f ≤ l → a ≤ e) ∧ (l ≤ f → e ≤ a) ∧
    ∀ P, (∀ x ∈ P, x ∈ T) → c ≠ 0 → IsInterval P T sa f l → IsInterval (c :: P) T sa a e

theorem stepExact_of {T sa T' : List Nat} {al : Alphabet} (hc : Compact T sa al T')
    {rankC : Nat → Nat → Option Nat} (hr : ∀ c v, c ∈ T' → v ≤ T'.length → rankC c v = some (cnt T' sa c v)) :
    StepExact (LFOnPsi rankC al.C) al.char2comp T sa := by
  intro c f l hcT hf hl
  have hsa' := hc.isSA
  rw [← hc.len] at hf hl
  have hm := hc.mem c hcT
  have hle : ∀ v, v ≤ T'.length → cumC T' (al.char2comp c) + cnt T' sa (al.char2comp c) v ≤ T'.length := by
    intro v hv
    have := cnt_mono (T := T') (sa := sa) (al.char2comp c) hv
    have htot := bwt_count_total hc.text hsa' (al.char2comp c)
    have := cumC_le (T := T') (al.char2comp c + 1)
    unfold cnt at *; omega
  have hstep : StepsBack T sa c f l (cumC T' (al.char2comp c) + cnt T' sa (al.char2comp c) f) (cumC T' (al.char2comp c) + cnt T' sa (al.char2comp c) l) := by
    intro i
    rw [lf_between hc.text hsa' hl]
    have hprev : ∀ j, j < T'.length → (saAt sa j + T'.length - 1) % T'.length = prevPos T (saAt sa j) := by
      intro j _; rw [prevPos, hc.len]
    have hget : ∀ j, j < T'.length → sa[j]? = some (saAt sa j) := by
      intro j hj; rw [saAt_eq hsa' hj, List.getElem?_eq_getElem]
    have hbw : ∀ j, j < T'.length → (bwtAt T' sa j = al.char2comp c ↔ T[prevPos T (saAt sa j)]? = some c) := by
      intro j hj
      rw [← occursAt_single, ← hc.occ [c] (by simpa using hcT), List.map_cons, List.map_nil, occursAt_single, ← hprev j hj, bwtAt, tx_lt (prev_lt hsa' hj),
        List.getElem?_eq_getElem (prev_lt hsa' hj), Option.some_inj]
    constructor
    · rintro ⟨j, h1, h2, h3, rfl⟩
      have hj : j < T'.length := by omega
      refine ⟨j, _, h1, h2, hget j hj, (hbw j hj).1 h3, ?_⟩
      rw [hget _ (lfAt_lt hsa' hj), saAt_lfAt hsa' hj, hprev j hj]
    · rintro ⟨j, p, h1, h2, h3, h4, h5⟩
      have hj : j < T'.length := by omega
      rw [hget j hj] at h3
      obtain rfl := Option.some_inj.1 h3
      refine ⟨j, h1, h2, (hbw j hj).2 h4, ?_⟩
      have hi : i < T'.length := by rw [← hsa'.length]; exact (List.getElem?_eq_some_iff.1 h5).1
      rw [hget i hi, ← hprev j hj, ← saAt_lfAt hsa' hj] at h5
      exact (saAt_inj hsa' hi (lfAt_lt hsa' hj) (Option.some_inj.1 h5)).symm
  refine ⟨_, _, LFOnPsi_eq (hr _ _ hm hf) (hr _ _ hm hl) (hc.C _ (Nat.le_of_lt (hc.lt _ hm))), ?_, ?_, hstep, ?_, ?_, ?_⟩
  · rw [← hc.len]; exact hle f hf
  · rw [← hc.len]; exact hle l hl
  · intro h; have := cnt_mono (T := T') (sa := sa) (al.char2comp c) h; omega
  · intro h; have := cnt_mono (T := T') (sa := sa) (al.char2comp c) h; omega
  · intro P hP h0 hI
    have hI' : IsInterval (P.map al.char2comp) T' sa f l :=
      ⟨hI.1, hI.2.1, fun i hi => by rw [hc.occ P hP]; exact hI.2.2 i hi⟩
    have hs := backward_step hc.text hsa' (hc.pos c hcT h0) ((range_iff_interval hsa').1 hI')
    have hs2 := (range_iff_interval hsa').2 hs
    refine ⟨hs2.1, hs2.2.1, fun i hi => ?_⟩
    rw [← hc.occ (c :: P) (by intro x hx; rcases List.mem_cons.1 hx with rfl | hx; exacts [hcT, hP x hx])]
    exact hs2.2.2 i hi

/-- **C53** For every text, every range and every character of the text, the LF step over the run-length BWT, over PsiCoreRLE and over
    PsiCoreBV gives the exact range. -/
theorem c53_step (T sa : List Nat) (hT : IsText T) (hsa : IsSA T sa) (hn : T.length < 2^64) :
    ∃ b p q, constructBase T sa = some b ∧ constructPsiItems b = some p ∧ PsiCoreBV.build b.alphabet.C p.psi = some q ∧
      StepExact (LFOnPsi (fun c i => b.bwtRle.rank i c) b.alphabet.C) b.alphabet.char2comp T sa ∧
      StepExact (LFOnPsi p.core.rank b.alphabet.C) b.alphabet.char2comp T sa ∧
      StepExact (LFOnPsi q.rank b.alphabet.C) b.alphabet.char2comp T sa := by
  obtain ⟨b, T', hb, hok⟩ := base_build hT hsa
  have hc := hok.compact
  have hsa' := hc.isSA
  obtain ⟨p, hp, hpo⟩ := psiItems_build hok (by rw [W64_eq]; exact hn)
  have hisp : IsPsi p.psi (bwtSeq T' sa) := by
    refine ⟨by rw [hpo.psi, bwtSeq_length]; simp, ?_⟩
    intro j hj
    rw [bwtSeq_length] at hj
    rw [lfPos_eq hc.text hsa' hj, hpo.psi, List.getElem?_map, List.getElem?_range (lfAt_lt hsa' hj), Option.map_some, psi_lf hsa' hj]
  obtain ⟨q, hq, hqo⟩ := bv_build hc.dense hisp hc.sigma_pos
  refine ⟨b, p, q, hb, hp, by rw [hc.C_eq]; exact hq, ?_, ?_, ?_⟩
  · exact stepExact_of hc (fun c v h1 h2 => hok.rle.rank h2 h1)
  · exact stepExact_of hc (fun c v h1 h2 => by
      rw [hpo.core.rank (hc.lt c h1) (by rw [bwtSeq_length]; exact h2), bwtSeq, cnt_take h2])
  · exact stepExact_of hc (fun c v h1 h2 => by
      rw [hqo.rank (hc.lt c h1) (by rw [bwtSeq_length]; exact h2), bwtSeq, cnt_take h2])

/-- **C53**, a whole search: the steps over any of the three structures, started with the whole range, reach the suffix-array interval of
    the pattern, for every pattern over the characters of the text (the terminator excluded). -/
theorem c53_search (T sa : List Nat) (hT : IsText T) (hsa : IsSA T sa) (hn : T.length < 2^64) :
    ∃ b p q, constructBase T sa = some b ∧ constructPsiItems b = some p ∧ PsiCoreBV.build b.alphabet.C p.psi = some q ∧
      ∀ rankC ∈ [fun c i => b.bwtRle.rank i c, p.core.rank, q.rank], ∀ P : List Nat, (∀ x ∈ P, x ∈ T ∧ x ≠ 0) →
        ∃ a e, lfSearch rankC b.alphabet.C T.length (P.map b.alphabet.char2comp) = some (a, e) ∧ IsInterval P T sa a e := by
  obtain ⟨b, p, q, hb, hp, hq, h1, h2, h3⟩ := c53_step T sa hT hsa hn
  refine ⟨b, p, q, hb, hp, hq, ?_⟩
  intro rankC hr P hP
  have hs : StepExact (LFOnPsi rankC b.alphabet.C) b.alphabet.char2comp T sa := by
    simp only [List.mem_cons, List.not_mem_nil, or_false] at hr
    rcases hr with rfl | rfl | rfl <;> assumption
  induction P with
  | nil =>
    refine ⟨0, T.length, rfl, Nat.zero_le _, by rw [hsa.length], ?_⟩
    intro i hi
    have hm := hsa.1.mem_iff.1 (List.getElem_mem hi)
    rw [hsa.length] at hi
    simp only [OccursAt, List.length_nil, List.take_zero, Nat.add_zero, Nat.zero_le, and_true, hi, iff_true]
    exact Nat.le_of_lt (List.mem_range.1 hm)
  | cons c P ih =>
    obtain ⟨f, l, e1, e2⟩ := ih (fun x hx => hP x (List.mem_cons_of_mem _ hx))
    have hl : l ≤ T.length := by rw [← hsa.length]; exact e2.2.1
    obtain ⟨a, e, e3, _, _, _, _, _, e4⟩ := hs c f l (hP c List.mem_cons_self).1 (Nat.le_trans e2.1 hl) hl
    refine ⟨a, e, ?_, e4 P (fun x hx => (hP x (List.mem_cons_of_mem _ hx)).1) (hP c List.mem_cons_self).2 e2⟩
    rw [List.map_cons, lfSearch, e1]
    exact e3

/-- the LF of the psi-based indexes (C01-C13 speak of it) is this functor over the reporting rank -/
theorem c53_indexes (N : PsiNav) (r : Range) (c : Nat) :
    N.lf r c = LFGeneral N.psiRank (fun c => N.alphabet.C[c]?)
      (fun s e k => { start := { s with value := s.value + k }, stop := { e with value := e.value + k } }) ⟨⟨0,0,0,0⟩, ⟨0,0,0,0⟩⟩ (r.start, r.stop) c := rfl

example : IsText exText ∧ IsSA exText exSA := ⟨⟨[1,2,3,1,2,3,1,2,1,2,3], rfl, by decide⟩, ⟨by decide, by decide⟩⟩

-- the cases of test/lf_tests.cpp: "c" then "bc" then "abc", and a character that does not precede the range
example : ((constructBase exText exSA).bind (fun b => (constructPsiItems b).map (fun p =>
    ([(0, 12), (9, 12), (6, 9), (1, 5)].zip [3, 2, 1, 1]).map (fun x => LFOnPsi p.core.rank b.alphabet.C x.1 x.2)))) =
    some [some (9, 12), some (6, 9), some (2, 5), some (1, 1)] := by decide +kernel

/-- **C53**, the documented answer when the character is not in the range, the given empty range `{1,0}`, never comes back for an ordered
    range: the answer is the empty range at the place where the suffixes would be. -/
theorem c53_empty_range (T sa : List Nat) (hT : IsText T) (hsa : IsSA T sa) (hn : T.length < 2^64) :
    ∃ b p, constructBase T sa = some b ∧ constructPsiItems b = some p ∧ ∀ c f l, c ∈ T → f ≤ l → l ≤ T.length →
      (∀ j p, f ≤ j → j < l → sa[j]? = some p → T[prevPos T p]? ≠ some c) →
      ∃ a, LFOnPsi p.core.rank b.alphabet.C (f, l) (b.alphabet.char2comp c) = some (a, a) := by
  obtain ⟨b, p, q, hb, hp, hq, h1, h2, h3⟩ := c53_step T sa hT hsa hn
  refine ⟨b, p, hb, hp, ?_⟩
  intro c f l hc hfl hl hno
  obtain ⟨a, e, e1, _, _, e2, e3, _, _⟩ := h2 c f l hc (by omega) hl
  have : a = e := by
    by_contra hne
    have := e3 hfl
    obtain ⟨j, p, i1, i2, i3, i4, _⟩ := (e2 a).1 ⟨Nat.le_refl _, by omega⟩
    exact hno j p i1 i2 i3 i4
  subst this
  exact ⟨a, e1⟩

example : ((constructBase exText exSA).bind (fun b => LFOnPsi (fun c i => b.bwtRle.rank i c) b.alphabet.C (10, 12) 1)) = some (5, 5) := by
  decide +kernel

end Sri
