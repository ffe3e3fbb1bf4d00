import Verif.Proofs.RunSpace
import Verif.Proofs.PsiText
import Verif.Props.Psi
import Verif.Props.RIndex

/-! # C85: the BWT and psi take space by runs, not by symbols -/
namespace Sri
set_option autoImplicit false

/-- **C85**, RLEString: of a sequence with `r` runs it holds `r` heads, one mark for each full block of `b` runs that another run follows, and
    over all symbols `r` marks for the ends of runs. -/
theorem c85_rle (xs : List Nat) (b : Nat) (hx : xs ≠ []) (hb : 0 < b) :
    ∃ S, RLEString.build xs b = some S ∧ S.runHeads.length = runsBefore xs xs.length ∧
      S.runs.count true = (runsBefore xs xs.length - 1) / b ∧ (S.perSym.map (fun v => v.count true)).sum = runsBefore xs xs.length := by
  obtain ⟨S, h1, h2, h3, -⟩ := build_rep hx hb
  have h4 := runsBefore_rstart (rle_pos xs) (rle_alternating xs) (Nat.le_refl (rle xs).length)
  rw [expand_rle, show rstart (rle xs) (rle xs).length = xs.length by rw [← length_expand, expand_rle]] at h4
  exact ⟨S, h1, by rw [h3.heads, List.length_map, h4], by rw [h3.ones, h2, h4], by rw [h3.symOnes, h4]⟩

-- 12 symbols in 6 runs, two blocks of two that another run follows
example : (RLEString.build exBwt 2).map (fun S => (S.runHeads.length, S.runs.count true, (S.perSym.map (fun v => v.count true)).sum))
    = some (runsBefore exBwt exBwt.length, (runsBefore exBwt exBwt.length - 1) / 2, runsBefore exBwt exBwt.length) ∧
    runsBefore exBwt exBwt.length = 6 ∧ exBwt.length = 12 := by decide +kernel

/-- **C85**, PsiCoreRLE with sampling period `2h`: the part of a symbol with `r` runs holds the two ends of each, samples for one run in `h`
    and the ranks of all of these but the first; its bits are at most the Elias-delta codes of `2r` numbers as great as the length of the
    sequence. The runs of all symbols are those of the sequence. -/
theorem c85_psi (xs : List Nat) (s h : Nat) (hd : Dense xs s) (hs : 0 < s) (hh : 0 < h) (hn : xs.length < 2^64) :
    ∃ psi P, constructPsi xs (cumOf xs s) = some psi ∧ PsiCoreRLE.build (2*h) (cumOf xs s) psi = some P ∧ P.parts.length = s ∧
      (∀ c, c < s → ∃ E ranks, P.parts[c]? = some (E, ranks) ∧ E.size = 2 * symbolRunsBefore xs c xs.length ∧
        E.sp.length = 2 * ((symbolRunsBefore xs c xs.length + h - 1) / h) + 2 ∧ ranks.length = (symbolRunsBefore xs c xs.length - 1) / h ∧
        E.z.length ≤ 2 * symbolRunsBefore xs c xs.length * (Nat.log2 xs.length + 2 * Nat.log2 (Nat.log2 xs.length + 1) + 1)) ∧
      ((List.range s).map (fun c => symbolRunsBefore xs c xs.length)).sum = runsBefore xs xs.length := by
  have hn' : xs.length < W64 := by rw [W64_eq]; exact hn
  obtain ⟨psi, h1, h2, h3⟩ := constructPsi_spec hd.1
  obtain ⟨P, h4, -⟩ := rle_build hd ⟨h2, h3⟩ hs hh hn'
  obtain ⟨h5, h6⟩ := psiCore_space hd ⟨h2, h3⟩ hh hn' h4
  refine ⟨psi, P, h1, h4, h5, fun c hc => ?_, sum_symbolRuns hd.1⟩
  obtain ⟨E, ranks, e, z⟩ := h6 c hc
  exact ⟨E, ranks, e, z.size, z.samples, z.ranks, z.bits⟩

-- the parts of four symbols with 1, 1, 2 and 2 runs, a sample for every run
example : Dense exBwt 4 ∧ ((constructPsi exBwt (cumOf exBwt 4)).bind (PsiCoreRLE.build (2 * 1) (cumOf exBwt 4))).map
    (fun P => P.parts.map (fun q => (q.1.size, q.1.sp.length, q.2.length, q.1.z.length))) = some [(2, 4, 0, 1), (2, 4, 0, 5), (4, 6, 1, 5), (4, 6, 1, 5)] :=
  ⟨⟨by decide, by decide⟩, by decide +kernel⟩

theorem parts_sum {parts : List (EncVector × List Nat)} {s h n : Nat} {r : Nat → Nat} (hh : 0 < h) (hl : parts.length = s)
    (hp : ∀ c, c < s → ∃ E ranks, parts[c]? = some (E, ranks) ∧ PartSpace E ranks (r c) n h) :
    (parts.map (fun q => q.1.size)).sum = 2 * ((List.range s).map r).sum ∧
    (parts.map (fun q => q.2.length)).sum ≤ ((List.range s).map r).sum / h ∧
    (parts.map (fun q => q.1.sp.length)).sum ≤ 2 * (((List.range s).map r).sum / h) + 4 * s ∧
    (parts.map (fun q => q.1.z.length)).sum ≤ 2 * ((List.range s).map r).sum * codeLength n := by
  induction parts using List.reverseRecOn generalizing s with
  | nil => subst hl; simp
  | append_singleton parts q ih =>
    rw [List.length_append, List.length_singleton] at hl
    obtain ⟨i1, i2, i3, i4⟩ := ih (s := s - 1) (by omega) (fun c hc => by
      obtain ⟨E, ranks, h1, h2⟩ := hp c (by omega)
      rw [List.getElem?_append_left (by omega)] at h1
      exact ⟨E, ranks, h1, h2⟩)
    obtain ⟨E, ranks, h1, z⟩ := hp (s - 1) (by omega)
    rw [List.getElem?_append_right (by omega), show s - 1 - parts.length = 0 by omega] at h1
    cases h1
    obtain ⟨k, rfl⟩ : ∃ k, s = k + 1 := ⟨s - 1, by omega⟩
    simp only [Nat.add_sub_cancel] at i1 i2 i3 i4 z
    simp only [List.range_succ, List.map_append, List.sum_append, List.map_cons, List.map_nil, List.sum_cons, List.sum_nil, Nat.add_zero]
    generalize ((List.range k).map r).sum = R at i1 i2 i3 i4 ⊢
    have hdiv : R / h + r k / h ≤ (R + r k) / h := by
      rw [Nat.le_div_iff_mul_le hh, Nat.add_mul]
      exact Nat.add_le_add (Nat.div_mul_le_self _ _) (Nat.div_mul_le_self _ _)
    have hr : (r k - 1) / h ≤ r k / h := Nat.div_le_div_right (by omega)
    have hs : (r k + h - 1) / h ≤ r k / h + 1 := by
      rw [← Nat.add_div_right _ hh]; exact Nat.div_le_div_right (by omega)
    refine ⟨?_, ?_, ?_, ?_⟩
    · rw [i1, z.size]; omega
    · rw [z.ranks]; omega
    · rw [z.samples]; omega
    · have := z.bits
      rw [Nat.mul_add, Nat.add_mul]; omega

/-- **C85** for a text with `r` runs in its BWT and `σ` symbols: what the run-length BWT (blocks of two runs) and psi (sampling period 64) of
    every index hold. -/
theorem c85_text (T sa : List Nat) (hT : IsText T) (hsa : IsSA T sa) (hn : T.length < 2^64) :
    ∃ b p, constructBase T sa = some b ∧ constructPsiItems b = some p ∧
      b.bwtRle.runHeads.length = runsBefore (bwtOf T sa) T.length ∧
      b.bwtRle.runs.count true = (runsBefore (bwtOf T sa) T.length - 1) / 2 ∧
      (b.bwtRle.perSym.map (fun v => v.count true)).sum = runsBefore (bwtOf T sa) T.length ∧
      (p.core.parts.map (fun q => q.1.size)).sum = 2 * runsBefore (bwtOf T sa) T.length ∧
      (p.core.parts.map (fun q => q.2.length)).sum ≤ runsBefore (bwtOf T sa) T.length / 32 ∧
      (p.core.parts.map (fun q => q.1.sp.length)).sum ≤ 2 * (runsBefore (bwtOf T sa) T.length / 32) + 4 * b.alphabet.sigma ∧
      (p.core.parts.map (fun q => q.1.z.length)).sum ≤
        2 * runsBefore (bwtOf T sa) T.length * (Nat.log2 T.length + 2 * Nat.log2 (Nat.log2 T.length + 1) + 1) := by
  obtain ⟨b, T', hb, hok⟩ := base_build hT hsa
  have hc := hok.compact
  have hn' : T.length < W64 := by rw [W64_eq]; exact hn
  obtain ⟨p, hp, -⟩ := psiItems_build hok hn'
  have e : (constructBWT T sa).map b.alphabet.char2comp = bwtSeq T' sa := hc.bwt
  have hlen : (bwtSeq T' sa).length = T.length := by rw [bwtSeq_length, hc.len]
  have hR : nrun T' sa = runsBefore (bwtOf T sa) T.length := by rw [hc.nrun_eq hT hsa, nrun_spec hsa hT.pos]
  have hb2 : b.bwtRle.b = 2 := by
    unfold constructBase at hb
    obtain ⟨runs, -, hb⟩ := Option.bind_eq_some_iff.1 hb
    obtain ⟨S, hS, hb⟩ := Option.bind_eq_some_iff.1 hb
    cases hb
    obtain ⟨S', h1, h2, -⟩ := build_rep (xs := (constructBWT T sa).map (Alphabet.build (constructBWT T sa)).char2comp) (b := 2)
      (by rw [← List.length_pos_iff, List.length_map, constructBWT_length hsa]; exact hT.pos) (by omega)
    rw [hS] at h1
    cases h1
    exact h2
  have hruns : runsBefore (bwtSeq T' sa) (bwtSeq T' sa).length = runsBefore (bwtOf T sa) T.length := by
    have h4 := runsBefore_rstart (rle_pos (bwtSeq T' sa)) (rle_alternating _) (Nat.le_refl (rle (bwtSeq T' sa)).length)
    rw [expand_rle, show rstart (rle (bwtSeq T' sa)) (rle (bwtSeq T' sa)).length = (bwtSeq T' sa).length by rw [← length_expand, expand_rle]] at h4
    rw [h4, ← hR]; rfl
  refine ⟨b, p, hb, hp, ?_, ?_, ?_, ?_⟩
  · rw [hok.rle.rep.heads, List.length_map, ← hR]; rfl
  · rw [hok.rle.rep.ones, hb2, ← hR]; rfl
  · rw [hok.rle.rep.symOnes, ← hR]; rfl
  · obtain ⟨psi, h1, h2, h3⟩ := constructPsi_spec hc.dense.1
    unfold constructPsiItems at hp
    rw [hc.C_eq] at hp
    simp only [psiItems_syms hok, h1, Option.bind_eq_bind, Option.bind_some] at hp
    obtain ⟨core, h4, hp⟩ := Option.bind_eq_some_iff.1 hp
    cases hp
    obtain ⟨h5, h6⟩ := psiCore_space (h := 32) hc.dense ⟨h2, h3⟩ (by omega) (by rw [hlen]; exact hn') h4
    have h7 := parts_sum (by omega) h5 h6
    rw [sum_symbolRuns hc.dense.1, hruns, hlen] at h7
    exact h7

example : IsText exText ∧ IsSA exText exSA ∧ exText.length = 12 ∧ runsBefore (bwtOf exText exSA) exText.length = 6 :=
  ⟨⟨[1,2,3,1,2,3,1,2,1,2,3], rfl, by decide⟩, ⟨by decide, by decide⟩, by decide, by decide⟩

end Sri
