import Verif.Proofs.Base
import Verif.Proofs.PsiCoreRuns
import Verif.Model.PsiText
/-! # psi of a text -/
namespace Sri
set_option autoImplicit false

/-- the BWT as a sequence -/
def bwtSeq (T sa : List Nat) : List Nat := (List.range T.length).map (bwtAt T sa)

section
variable {T sa : List Nat}

theorem bwtSeq_length : (bwtSeq T sa).length = T.length := by simp [bwtSeq]

theorem bwtSeq_get {i : Nat} (hi : i < T.length) : (bwtSeq T sa)[i]? = some (bwtAt T sa i) := by
  simp [bwtSeq, List.getElem?_map, List.getElem?_range hi]

theorem bwtSeq_getD {i : Nat} (hi : i < T.length) : (bwtSeq T sa).getD i 0 = bwtAt T sa i := by
  rw [List.getD_eq_getElem?_getD, bwtSeq_get hi]; rfl

theorem bwtSeq_perm (hT : IsText T) (hsa : IsSA T sa) : (bwtSeq T sa).Perm T := by
  rw [bwtSeq, ← constructBWT_eq hsa]; exact constructBWT_perm hT hsa

theorem bwtSeq_below (hT : IsText T) (hsa : IsSA T sa) (c : Nat) : below (bwtSeq T sa) c = cumC T c :=
  (bwtSeq_perm hT hsa).countP_eq _

theorem bwtSeq_take (c i : Nat) (hi : i ≤ T.length) : ((bwtSeq T sa).take i).count c = cnt T sa c i := by
  rw [count_take_eq _ _ _ (by rw [bwtSeq_length]; exact hi), cnt]
  apply count_congr
  intro k hk
  rw [bwtSeq_get (by omega)]; simp

theorem lfPos_eq (hT : IsText T) (hsa : IsSA T sa) {i : Nat} (hi : i < T.length) : lfPos (bwtSeq T sa) i = lfAt T sa i := by
  rw [lfPos, bwtSeq_getD hi, bwtSeq_below hT hsa, bwtSeq_take _ _ (by omega), lf_formula hT hsa hi]; rfl

theorem bwtSeq_rle : rle (bwtSeq T sa) = runsOf T sa := rfl

/-- psi as computed is psi as defined -/
theorem psi_eq (hT : IsText T) (hsa : IsSA T sa) {psi : List Nat} (hp : IsPsi psi (bwtSeq T sa)) :
    psi = (List.range T.length).map (psiAt T sa) := by
  apply List.ext_getElem?
  intro i
  by_cases hi : i < T.length
  · have h1 := psiAt_lt hsa hi
    have h2 := hp.get _ (by rw [bwtSeq_length]; exact h1)
    rw [lfPos_eq hT hsa h1, lf_psi hsa hi] at h2
    rw [h2, List.getElem?_map, List.getElem?_range hi]; rfl
  · rw [List.getElem?_eq_none (by rw [hp.len, bwtSeq_length]; omega), List.getElem?_eq_none (by simp; omega)]

end

section
variable {T sa T' : List Nat} {a : Alphabet}

theorem Compact.dense (hc : Compact T sa a T') : Dense (bwtSeq T' sa) a.sigma := by
  have hp := bwtSeq_perm hc.text hc.isSA
  exact ⟨fun x hx => hc.lt x (hp.mem_iff.1 hx), fun c h => hp.mem_iff.2 (hc.full c h)⟩

theorem Compact.C_eq (hc : Compact T sa a T') : a.C = cumOf (bwtSeq T' sa) a.sigma := by
  apply List.ext_getElem?
  intro k
  by_cases hk : k ≤ a.sigma
  · rw [hc.C k hk, cumOf_get hk, bwtSeq_below hc.text hc.isSA]
  · rw [List.getElem?_eq_none (by rw [hc.Clen]; omega), List.getElem?_eq_none (by rw [cumOf_length]; omega)]

theorem Compact.sigma_pos (hc : Compact T sa a T') : 0 < a.sigma := by
  obtain ⟨u, hu, _⟩ := hc.text
  exact Nat.lt_of_le_of_lt (Nat.zero_le _) (hc.lt 0 (by rw [hu]; simp))

/-- what constructPsi leaves in the cache -/
structure PsiItemsOK (T' sa : List Nat) (s : Nat) (p : PsiItems) : Prop where
  psi : p.psi = (List.range T'.length).map (psiAt T' sa)
  core : PsiOK p.core (bwtSeq T' sa) s 32

theorem psiItems_syms {b : BaseItems} (hb : BaseOK T sa T' b) : (List.range b.n).mapM b.bwtRle.access = some (bwtSeq T' sa) := by
  rw [hb.n, bwtSeq]
  exact PartOK.mapM_some (fun i hi => hb.rle.access (List.mem_range.1 hi))

theorem psiItems_build {b : BaseItems} (hb : BaseOK T sa T' b) (hn : T.length < W64) :
    ∃ p, constructPsiItems b = some p ∧ PsiItemsOK T' sa b.alphabet.sigma p := by
  have hc := hb.compact
  obtain ⟨psi, h1, h2, h3⟩ := constructPsi_spec hc.dense.1
  have hp : IsPsi psi (bwtSeq T' sa) := ⟨h2, h3⟩
  obtain ⟨P, h4, h5⟩ := rle_build (h := 32) hc.dense hp hc.sigma_pos (by omega) (by rw [bwtSeq_length, hc.len]; exact hn)
  refine ⟨{ psi := psi, core := P }, ?_, psi_eq hc.text hc.isSA hp, h5⟩
  unfold constructPsiItems
  rw [hc.C_eq]
  simp only [psiItems_syms hb, h1, Option.bind_eq_bind, Option.bind_some]
  rw [show 64 = 2 * 32 from rfl, h4]; rfl

theorem basicLF_eq {b : BaseItems} (hb : BaseOK T sa T' b) {i : Nat} (hi : i < T'.length) :
    basicLF b.bwtRle b.alphabet.C i = some (lfAt T' sa i) := by
  have hc := hb.compact
  have hm : bwtAt T' sa i ∈ T' := by
    rw [← (bwtSeq_perm hc.text hc.isSA).mem_iff]; exact List.mem_of_getElem? (bwtSeq_get hi)
  unfold basicLF
  simp only [hb.rle.access hi, Option.bind_eq_bind, Option.bind_some, hc.C _ (Nat.le_of_lt (hc.lt _ hm)), hb.rle.rank (Nat.le_of_lt hi) hm]
  rw [lf_formula hc.text hc.isSA hi]; rfl

/-- the symbol of a suffix-array position, by `C` -/
theorem computeC_eq (hc : Compact T sa a T') {i : Nat} (hi : i < T'.length) :
    computeCForSAIndex a.C i = some (tx T' (saAt sa i)) := by
  obtain ⟨h1, h2, h3⟩ := PartOK.upperBound_spec a.C i
  have hb := (block_iff hc.isSA hi).1 rfl
  have hlt : tx T' (saAt sa i) < a.sigma := hc.lt _ (by
    rw [tx_lt (saAt_lt hc.isSA hi)]; exact List.getElem_mem _)
  set c := tx T' (saAt sa i)
  have hu : upperBound a.C i = c + 1 := by
    rcases Nat.lt_trichotomy (upperBound a.C i) (c+1) with h | h | h
    · exfalso
      have h4 := hc.C (upperBound a.C i) (by omega)
      have h5 := h3 _ h4
      have h6 : cumC T' (upperBound a.C i) ≤ cumC T' c := by
        have := below_mono (bwtSeq T' sa) (show upperBound a.C i ≤ c by omega)
        rwa [bwtSeq_below hc.text hc.isSA, bwtSeq_below hc.text hc.isSA] at this
      omega
    · exact h
    · exfalso
      obtain ⟨y, hy, hyi⟩ := h2 (c+1) h
      rw [hc.C _ hlt] at hy
      obtain rfl := Option.some_inj.1 hy
      exact absurd hb.2 (Nat.not_lt.2 hyi)
  unfold computeCForSAIndex
  rw [hu]; simp [csub]

/-- the psi functor over any exact select -/
theorem psiApply_eq (hc : Compact T sa a T') {sel : Nat → Nat → Option Nat}
    (hs : ∀ c v, c < a.sigma → (bwtSeq T' sa)[v]? = some c → sel c (((bwtSeq T' sa).take v).count c + 1) = some v) {i : Nat} (hi : i < T'.length) :
    psiApply sel a.C i = some (psiAt T' sa i) := by
  have hv := psiAt_lt hc.isSA hi
  have hlf := lf_psi hc.isSA hi
  have hbw : bwtAt T' sa (psiAt T' sa i) = tx T' (saAt sa i) := by rw [bwtAt_eq hc.isSA hv, hlf]
  have hlt : tx T' (saAt sa i) < a.sigma := hc.lt _ (by
    rw [tx_lt (saAt_lt hc.isSA hi)]; exact List.getElem_mem _)
  have h1 := lf_formula hc.text hc.isSA hv
  rw [hlf, hbw] at h1
  have h2 := hs _ _ hlt (by rw [bwtSeq_get hv, hbw])
  rw [bwtSeq_take _ _ (Nat.le_of_lt hv)] at h2
  unfold psiApply
  simp only [computeC_eq hc hi, Option.bind_eq_bind, Option.bind_some, hc.C _ (Nat.le_of_lt hlt)]
  have h3 : csub i (cumC T' (tx T' (saAt sa i))) = some (cnt T' sa (tx T' (saAt sa i)) (psiAt T' sa i)) := by
    unfold csub cnt
    rw [if_pos (by omega)]; congr 1; omega
  rw [h3]; exact h2

end
end Sri
