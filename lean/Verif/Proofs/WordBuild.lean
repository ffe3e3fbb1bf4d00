import Verif.Model.WordBuild
import Verif.Proofs.WordsForw
import Verif.Proofs.WordsBack
import Verif.Props.LargeTexts
/-! # The construction in machine arithmetic yields what the construction over the natural numbers yields -/
namespace Sri
set_option autoImplicit false

theorem W64_val : W64 = 18446744073709551616 := rfl

/-! ## The runs of the BWT -/

theorem bwtTextPosM_eq {n p : Nat} (hn : 0 < n) (hn' : n < W64) (hp : p < W64) : bwtTextPosM n p = bwtTextPos n p := by
  unfold bwtTextPosM bwtTextPos
  split
  · exact wsub_eq (by omega) hp
  · exact wsub_eq (by omega) hn'

theorem bwtRunsLoopM_eq {n : Nat} (hn : 0 < n) (hn' : n < W64) (rest : List (Nat × Nat)) (i sym pos : Nat) (h : i + rest.length ≤ intMax) :
    bwtRunsLoopM n i sym pos rest = some (bwtRunsLoop n i sym pos rest) := by
  induction rest generalizing i sym pos with
  | nil => rw [bwtRunsLoopM, bwtRunsLoop, wsub_eq (by omega) hn']
  | cons q rest ih =>
    obtain ⟨s, p⟩ := q
    simp only [List.length_cons] at h
    rw [bwtRunsLoopM, bwtRunsLoop, intInc_some (by omega)]
    simp only [Option.bind_eq_bind, Option.bind_some, Option.pure_def]
    split
    · rw [ih _ _ _ (by omega), Option.bind_some]
    · rw [ih _ _ _ (by omega)]

theorem constructBWTRunsM_eq {bwt sa : List Nat} (hl : sa.length = bwt.length) (hs : ∀ p ∈ sa, p < bwt.length) (h : bwt.length ≤ intMax) :
    constructBWTRunsM bwt sa = constructBWTRuns bwt sa := by
  have hW := W64_val
  unfold intMax at h
  have hm : sa.map (bwtTextPosM bwt.length) = sa.map (bwtTextPos bwt.length) :=
    List.map_congr_left fun p hp => by have := hs p hp; exact bwtTextPosM_eq (by omega) (by omega) (by omega)
  have hz : (bwt.zip (sa.map (bwtTextPos bwt.length))).length = bwt.length := by simp [hl]
  rw [constructBWTRunsM, constructBWTRuns, hm]
  split
  · next e => rw [e]
  · next sym pos rest e =>
    rw [e] at hz ⊢
    simp only [List.length_cons] at hz
    rw [bwtRunsLoopM_eq (by omega) (by omega) _ _ _ _ (by unfold intMax; omega)]
    rfl

/-! ## The run-length string -/

theorem RLEString.emitM_eq {b : Nat} (hb : 1 ≤ b) (hb' : b < W64) (rest : List Nat) (x r : Nat) (h : r + rest.length + 1 < W64) :
    RLEString.emitM b x r rest = RLEString.emit b x r rest := by
  induction rest generalizing x r with
  | nil => rw [RLEString.emitM, RLEString.emit, add64_eq (by simp at h; omega)]
  | cons y rest ih =>
    simp only [List.length_cons] at h
    rw [RLEString.emitM, RLEString.emit]
    split
    · rw [add64_eq (by omega), ih _ _ (by omega), wsub_eq hb hb']
    · rw [ih _ _ (by omega)]

theorem RLEString.emit_per (b : Nat) (rest : List Nat) (x r : Nat) : ∀ q ∈ (RLEString.emit b x r rest).per, q.1 ∈ x :: rest := by
  induction rest generalizing x r with
  | nil =>
    intro q hq
    simp only [RLEString.emit, List.mem_singleton] at hq
    subst hq; simp
  | cons y rest ih =>
    intro q hq
    rw [RLEString.emit] at hq
    split at hq
    · simp only [List.mem_cons] at hq
      rcases hq with rfl | hq
      · simp
      · have := ih _ _ q hq
        simp only [List.mem_cons] at this ⊢; tauto
    · next he =>
      simp only [List.mem_cons] at hq
      rcases hq with rfl | hq
      · simp
      · have := ih _ _ q hq
        simp only [List.mem_cons] at this ⊢; tauto

theorem foldl_max_lt {B : Nat} : ∀ (l : List Nat) (a : Nat), a < B → (∀ x ∈ l, x < B) → l.foldl max a < B
  | [], _, ha, _ => ha
  | x :: l, a, ha, h => by
    rw [List.foldl_cons]
    have := h x (by simp)
    exact foldl_max_lt l _ (by omega) fun y hy => h y (by simp [hy])

theorem RLEString.buildM_eq {xs : List Nat} {b : Nat} (hb : b < W64) (hl : xs.length < W64) (hx : ∀ x ∈ xs, x < W64 - 1) :
    RLEString.buildM xs b = RLEString.build xs b := by
  have hW := W64_val
  unfold RLEString.buildM RLEString.build
  cases xs with
  | nil => rfl
  | cons x rest =>
    dsimp only
    by_cases h0 : b = 0
    · rw [if_pos h0, if_pos h0]
    · rw [if_neg h0, if_neg h0]
      simp only [List.length_cons] at hl
      rw [RLEString.emitM_eq (by omega) hb _ _ _ (by omega)]
      have ht : ((RLEString.emit b x 0 rest).per.map (·.1)).foldl max 0 < W64 - 1 := by
        refine foldl_max_lt _ _ (by omega) fun y hy => ?_
        obtain ⟨q, hq, rfl⟩ := List.mem_map.1 hy
        exact hx _ (RLEString.emit_per b rest x 0 q hq)
      rw [add64_eq (by omega)]
      simp [assertC]

/-! ## The items common to all indexes -/

section
variable {T sa T' : List Nat}

theorem Compact.sigma_le {a : Alphabet} (hc : Compact T sa a T') : a.sigma ≤ T'.length := by
  have h : (List.range a.sigma).Subperm T' :=
    List.subperm_of_subset List.nodup_range fun c h => hc.full c (List.mem_range.1 h)
  have := h.length_le
  rwa [List.length_range] at this

theorem constructBaseM_eq (hT : IsText T) (hsa : IsSA T sa) (hn : T.length < 2 ^ 31) : constructBaseM T sa = constructBase T sa := by
  have hW := W64_val
  have hc := compact_build hT hsa
  have hl : (constructBWT T sa).length = T.length := by rw [constructBWT, List.length_map, hsa.length]
  have hs : ∀ p ∈ sa, p < (constructBWT T sa).length := fun p hp => by
    rw [hl]; exact List.mem_range.1 (hsa.1.mem_iff.1 hp)
  have hsig := hc.sigma_le
  rw [hc.len] at hsig
  have hr : RLEString.buildM ((constructBWT T sa).map (Alphabet.build (constructBWT T sa)).char2comp) 2 =
      RLEString.build ((constructBWT T sa).map (Alphabet.build (constructBWT T sa)).char2comp) 2 := by
    refine RLEString.buildM_eq (by omega) (by rw [List.length_map, hl]; omega) ?_
    intro x hx
    rw [hc.bwt] at hx
    have h1 : x ∈ bwtSeq (T.map (Alphabet.build (constructBWT T sa)).char2comp) sa := hx
    have := hc.lt x ((bwtSeq_perm hc.text hc.isSA).mem_iff.1 h1)
    omega
  rw [constructBaseM, constructBase, constructBWTRunsM_eq (by rw [hsa.length, hl]) hs (by rw [hl, intMax]; omega)]
  simp only [hr]

/-! ## psi -/

theorem psiLoopM_eq (bwt : List Nat) (i : Nat) (saPos psi : List Nat) (h : i + bwt.length < W64) (hp : psi.length < W64) :
    psiLoopM bwt i saPos psi = psiLoop bwt i saPos psi := by
  induction bwt generalizing i saPos psi with
  | nil => rfl
  | cons c bwt ih =>
    simp only [List.length_cons] at h
    rw [psiLoopM, psiLoop]
    cases saPos[c]? with
    | none => rfl
    | some p =>
      simp only [Option.bind_eq_bind, Option.bind_some]
      by_cases hlt : p < psi.length
      · rw [add64_eq (by omega), add64_eq (by omega), ih _ _ _ (by omega) (by rw [List.length_set]; exact hp)]
      · simp [assertC, hlt]

theorem last_index {C : List Nat} (h : C.length < W64) : C[wsub C.length 1]? = (csub C.length 1).bind (fun i => C[i]?) := by
  unfold csub
  by_cases h0 : 1 ≤ C.length
  · rw [if_pos h0, wsub_eq h0 h]; rfl
  · rw [if_neg h0]
    have : C = [] := List.length_eq_zero_iff.1 (by omega)
    subst this; rfl

theorem constructPsiM_eq {bwt C : List Nat} (hC : C.length < W64) (hb : bwt.length < W64) : constructPsiM bwt C = constructPsi bwt C := by
  rw [constructPsiM, constructPsi, last_index hC]
  simp only [Option.bind_eq_bind, Option.bind_assoc]
  congr 1; funext s; congr 1; funext n
  by_cases h : n = bwt.length
  · rw [psiLoopM_eq _ _ _ _ (by omega) (by rw [List.length_replicate]; omega)]
  · simp [assertC, h]

namespace PsiCoreRLE

theorem runLoopM_eq (dens sp : Nat) (vs : List Nat) (acc ranks : List Nat) (j s e : Nat) (hj : sp + j + vs.length < W64) (hv : ∀ v ∈ vs, v + 1 < W64) :
    runLoopM dens sp acc ranks (sp + j) s e vs = runLoop dens acc ranks j s e vs := by
  induction vs generalizing acc ranks j s e with
  | nil => rfl
  | cons v vs ih =>
    simp only [List.length_cons] at hj
    have h1 := hv v (by simp)
    rw [runLoopM, runLoop, add64_eq (show sp + j + 1 < W64 by omega)]
    split
    · next he =>
      rw [add64_eq (by omega), Nat.add_assoc, ih _ _ _ _ _ (by omega) fun w hw => hv w (by simp [hw])]
    · dsimp only
      rw [add64_eq h1, wsub_eq (by omega) (by omega), Nat.add_sub_cancel_left, Nat.add_assoc,
        ih _ _ _ _ _ (by omega) fun w hw => hv w (by simp [hw])]

theorem buildPartM_eq (dens sp : Nat) (vals : List Nat) (hj : sp + vals.length < W64) (hv : ∀ v ∈ vals, v + 1 < W64) :
    buildPartM dens sp vals = buildPart dens vals := by
  unfold buildPartM buildPart
  cases vals with
  | nil => rfl
  | cons v vs =>
    simp only [List.length_cons] at hj
    dsimp only
    rw [add64_eq (hv v (by simp)), add64_eq (by omega), runLoopM_eq _ _ _ _ _ _ _ _ (by omega) fun w hw => hv w (by simp [hw])]

theorem buildLoopM_eq (dens : Nat) {C psi : List Nat} (hp : psi.length < W64) (hv : ∀ v ∈ psi, v + 1 < W64) (is : List Nat)
    (hi : ∀ i ∈ is, i + 1 < W64) (first : Nat) (parts : List (EncVector × List Nat)) :
    buildLoopM dens C psi is first parts = buildLoop dens C psi is first parts := by
  induction is generalizing first parts with
  | nil => rfl
  | cons i is ih =>
    rw [buildLoopM, buildLoop, add64_eq (hi i (by simp))]
    simp only [Option.bind_eq_bind]
    congr 1; funext sp; congr 1; funext ep
    cases hsp : psi[sp]? with
    | none => rw [Option.bind_none, Option.bind_none]
    | some v =>
      obtain ⟨hlt, -⟩ := List.getElem?_eq_some_iff.1 hsp
      simp only [Option.bind_some]
      rw [buildPartM_eq _ _ _ (by simp only [List.length_take, List.length_drop]; omega) fun w hw => hv w (List.mem_of_mem_drop (List.mem_of_mem_take hw)),
        ih fun k hk => hi k (by simp [hk])]

theorem buildM_eq (dens : Nat) {C psi : List Nat} (hC : C.length < W64) (hp : psi.length < W64) (hv : ∀ v ∈ psi, v + 1 < W64) :
    buildM dens C psi = build dens C psi := by
  rw [buildM, build, last_index hC]
  simp only [Option.bind_eq_bind, Option.bind_assoc]
  by_cases h0 : 1 ≤ C.length
  · have e : csub C.length 1 = some (C.length - 1) := by rw [csub, if_pos h0]
    rw [e, wsub_eq h0 hC]
    simp only [Option.bind_some]
    rw [buildLoopM_eq dens hp hv _ (fun i hi => by have := List.mem_range.1 hi; omega)]
  · have e : csub C.length 1 = none := by rw [csub, if_neg h0]
    rw [e, Option.bind_none, Option.bind_none]

end PsiCoreRLE

theorem constructPsiItemsM_eq {b : BaseItems} (hb : BaseOK T sa T' b) (hn : T.length < 2 ^ 31) {p : PsiItems}
    (hp : constructPsiItems b = some p) (ok : PsiItemsOK T' sa b.alphabet.sigma p) : constructPsiItemsM b = some p := by
  have hW := W64_val
  have hc := hb.compact
  have hlen := hc.len
  have hsig := hc.sigma_le
  have hCl := hc.Clen
  have hsm := hb.rle.small (by unfold Fits; omega)
  have hsyms : (List.range b.n).mapM b.bwtRle.access64 = some (bwtSeq T' sa) :=
    (mapM_agrees fun i _ => hsm.access i).eq (psiItems_syms hb)
  rw [constructPsiItems, psiItems_syms hb] at hp
  rw [constructPsiItemsM, hsyms]
  simp only [Option.bind_eq_bind, Option.bind_some, Option.pure_def, Option.bind_eq_some_iff] at hp
  obtain ⟨psi, h1, core, h2, e⟩ := hp
  rw [Option.some_inj] at e
  subst e
  have hpsi := ok.psi
  dsimp only at hpsi
  simp only [Option.bind_eq_bind, Option.bind_some, Option.pure_def]
  rw [constructPsiM_eq (by omega) (by rw [bwtSeq_length]; omega), h1, Option.bind_some,
    PsiCoreRLE.buildM_eq _ (by omega) (by rw [hpsi, List.length_map, List.length_range]; omega) ?_, h2, Option.bind_some]
  intro v hv
  rw [hpsi] at hv
  obtain ⟨i, hi, rfl⟩ := List.mem_map.1 hv
  have := psiAt_lt hc.isSA (List.mem_range.1 hi)
  omega

theorem basicLFM_eq {b : BaseItems} (hb : BaseOK T sa T' b) (hn : T.length < 2 ^ 31) {i : Nat} (hi : i < T'.length) :
    basicLFM b.bwtRle b.alphabet.C i = some (lfAt T' sa i) := by
  have hW := W64_val
  have hc := hb.compact
  have hlen := hc.len
  have hsm := hb.rle.small (by unfold Fits; omega)
  have h := basicLF_eq hb hi
  have hlt := lfAt_lt hc.isSA hi
  rw [basicLF] at h
  simp only [Option.bind_eq_bind, Option.pure_def, Option.bind_eq_some_iff] at h
  obtain ⟨c, h1, f, h2, r, h3, h4⟩ := h
  rw [Option.some_inj] at h4
  rw [basicLFM, (hsm.access i).eq h1]
  simp only [Option.bind_eq_bind, Option.bind_some, Option.pure_def, h2, (hsm.rank i c).eq h3]
  rw [add64_eq (by omega), h4]

theorem psiApplyM_eq {b : BaseItems} {p : PsiItems} (hb : BaseOK T sa T' b) (hp : PsiItemsOK T' sa b.alphabet.sigma p) (hn : T.length < 2 ^ 31)
    {i : Nat} (hi : i < T'.length) : psiApplyM p.core b.alphabet.C i = some (psiAt T' sa i) := by
  have hW := W64_val
  have hc := hb.compact
  have hlen := hc.len
  obtain ⟨hC, hnav⟩ := PsiNav.ok_of_items hb hp
  have h := hnav.psiFn i hi
  unfold PsiNav.psiAt psiApply at h
  simp only [Option.bind_eq_bind, Option.bind_eq_some_iff] at h
  obtain ⟨c, h1, f, h2, d, h3, h4⟩ := h
  unfold csub at h3
  by_cases hle : f ≤ i
  · rw [if_pos hle, Option.some_inj] at h3
    subst h3
    rw [psiApplyM, symbolRank64, h1]
    simp only [Option.bind_eq_bind, Option.bind_some, Option.pure_def, h2]
    rw [wsub_eq hle (by omega), add64_eq (by omega)]
    exact (PsiOK.select64 (by rw [bwtSeq_length]; omega) hp.core c (by omega)).eq h4
  · rw [if_neg hle] at h3; cases h3

end

end Sri
