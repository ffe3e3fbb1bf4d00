import Verif.Proofs.WorkBound
import Verif.Proofs.BackIndex
import Verif.Proofs.SrValid
import Verif.Proofs.SrCSAValid
import Verif.Proofs.RCSA
/-! # Bounds on the calls of a Locate query, for every family of indexes -/
namespace Sri
set_option autoImplicit false

open Cost

theorem Cost.Le.and_val {α : Type} {x : Cost α} {P : α → Nat → Prop} (h : x.Le P) : x.Le (fun a c => P a c ∧ x.val = some a) :=
  fun a c e => ⟨h a c e, by rw [e]; rfl⟩

/-- the calls of a query on a pattern: one per character for the search; if the pattern occurs, `A` for the first value and `B` for each
    further one -/
def WorkWithin (w : List Nat → Cost (List Nat)) (T : List Nat) (A B : Nat) : Prop :=
  ∀ P, IsPattern P T → (w P).Le (fun _ c => c ≤ P.length +
    if (occurrences P T).length = 0 then 0 else A + B * ((occurrences P T).length - 1))

section
variable {T sa T' : List Nat} {ρ ν δ : Type} {F : Functors ρ ν δ} {a : Alphabet}

theorem locate_work (hc : Compact T sa a T') (hg : F.getSymbol = a.char2comp) (hF : BackSearch F T' sa (PatSym T'))
    {TH : List Nat → Nat → ρ → δ → Prop} (hTH : Toehold F T' sa (PatSym T') TH) {w : ρ → δ → Cost (List Nat)} {A B : Nat}
    (hw : ∀ Q r d, IsRange Q T' sa (F.bounds r).1 (F.bounds r).2 → Q ≠ [] → (∀ c ∈ Q, c ≠ 0) →
      (F.bounds r).1 < (F.bounds r).2 → TH Q 0 r d → (w r d).Le (fun _ c => c ≤ A + B * ((F.bounds r).2 - (F.bounds r).1 - 1))) :
    WorkWithin (F.locateW w) T A B := by
  intro P hP
  obtain ⟨r, d, e1, e2, e3, e4⟩ := search_toehold hc hg hF hTH hP (P.length - 1)
  have hperm := perm_of_range hc hP.1 (fun c h => (hP.2 c h).1) e3
  have hlen : (F.bounds r).2 - (F.bounds r).1 = (occurrences P T).length := by
    rw [← hperm.length_eq, saSlice_length e2.2.1]
  refine (Functors.locateW_le (B := A + B * ((F.bounds r).2 - (F.bounds r).1 - 1)) e1 ?_).mono (fun _ c hcc => ?_)
  · intro he
    rw [hF.empty] at he
    have hlt : (F.bounds r).1 < (F.bounds r).2 := by simpa using he
    exact hw _ _ _ e3 (by simpa using hP.1) (fun x hx => by
      obtain ⟨y, hy, rfl⟩ := List.mem_map.1 hx
      exact hc.pos y (hP.2 y hy).1 (hP.2 y hy).2) hlt (e4 hlt).1
  · rw [hF.empty, hlen] at hcc
    by_cases h0 : (occurrences P T).length = 0
    · rw [if_pos (by simp; omega)] at hcc
      rw [if_pos h0]; exact hcc
    · rw [if_neg (by simp; omega)] at hcc
      rw [if_neg h0]; exact hcc

end

section near
variable {T sa : List Nat} {s : Nat} {kept : Nat → Prop}

/-- fewer than `s` steps of LF lead from a tail to a kept one -/
theorem tail_near (hT : IsText T) (hsa : IsSA T sa) (hk : TailSampling T sa s kept) {y : Nat} (hy : TailAt T sa y) :
    ∃ e, e ≤ s - 1 ∧ kept (lfIt T sa e y) := by
  by_cases hky : kept y
  · exact ⟨0, Nat.zero_le _, by rwa [lfIt_zero]⟩
  · obtain ⟨a, b, ha, hb, h1, h2, h3⟩ := hk.2 y hy hky
    have hat := (hk.1 a ha).1
    have hn := hT.pos
    have hpb := pv_lt (T := T) (sa := sa) (i := b) hn
    have hpos : 0 < saAt sa y := by
      by_contra hc
      have := pv_of_zero (T := T) (sa := sa) (i := y) hn (by omega)
      omega
    have hpy := pv_of_pos hsa hy.1 hpos
    obtain ⟨e, he⟩ : ∃ e, saAt sa y = e + 1 + pv T sa a := ⟨saAt sa y - 1 - pv T sa a, by omega⟩
    have e1 := sa_lfIt hsa hy.1 e (by omega)
    have e2 := pv_of_pos hsa (lfIt_lt hsa e hy.1) (by omega)
    have hae : a = lfIt T sa e y := pv_inj hsa hat (lfIt_lt hsa e hy.1) (by omega)
    exact ⟨e, by omega, hae ▸ ha⟩

/-- fewer than `s` steps of psi lead from a head to a kept one -/
theorem head_near (hT : IsText T) (hsa : IsSA T sa) (hk : HeadSampling T sa s kept) {y : Nat} (hy : HeadAt T sa y) :
    ∃ e, e ≤ s - 1 ∧ kept (psiIt T sa e y) := by
  by_cases hky : kept y
  · exact ⟨0, Nat.zero_le _, by rwa [psiIt_zero]⟩
  · obtain ⟨a, b, ha, hb, h1, h2, h3⟩ := hk.2 y hy hky
    have hbt := (hk.1 b hb).1
    have hn := hT.pos
    have hpb := pv_lt (T := T) (sa := sa) (i := b) hn
    have hpos : 0 < saAt sa y := by
      by_contra hc
      have := pv_of_zero (T := T) (sa := sa) (i := y) hn (by omega)
      omega
    have hpy := pv_of_pos hsa hy.1 hpos
    obtain ⟨e, he⟩ : ∃ e, pv T sa b = saAt sa y + e := ⟨pv T sa b - saAt sa y, by omega⟩
    have hbe : b = psiIt T sa (e+1) y := pv_inj hsa hbt (psiIt_lt hsa _ hy.1) (by
      rw [psiIt_succ, pv_psi hsa (psiIt_lt hsa e hy.1), sa_psiIt hsa hy.1 e (by omega)]; exact he)
    exact ⟨e+1, by omega, hbe ▸ hb⟩

end near

/-! ## RIndex -/

theorem RIndex.OK.work {I : RIndex} {T sa T' : List Nat} (ok : I.OK T' sa) (hc : Compact T sa I.alphabet T') : WorkWithin I.locateW T 2 1 := by
  refine locate_work hc (F := I.functors) rfl ok.backSearch ok.toeholdSpec ?_
  intro Q r d h1 h2 h3 h4 h5
  refine computeAllValuesW_le (B := 1 * _) (computeToeholdW_le ?_) ?_
  · rw [RIndex.saValueOfRunW]
    refine le_bind (P := fun _ c => c = 1) (le_call fun _ _ => rfl) ?_
    rintro run _ rfl
    refine le_bind (P := fun _ c => c = 1) (le_call fun _ _ => rfl) ?_
    rintro s _ rfl
    exact le_pure (Nat.le_refl _)
  · intro r' k hr
    refine (phiLoopW_le _ _ _).mono (fun _ c hcc => ?_)
    rw [hcc]
    have h4 : r.start < r.stop := h4
    rw [RIndex.shrink] at hr
    simp only [csub, show 1 ≤ r.stop by omega, if_true, Option.bind_eq_bind, Option.bind_some, Option.pure_def, Option.some_inj] at hr
    subst hr
    change r.stop - 1 - r.start ≤ 1 * (r.stop - r.start - 1)
    omega

/-! ## SrIndex -/

theorem SrIndex.OK.saValueOfRunW_le {I : SrIndex} {T sa K : List Nat} (h : I.OK T sa K) {d : RunDataExt} {q : Nat} (hq : q < nrun T sa)
    (hd' : SrIndex.den I T sa d q) : (I.saValueOfRunW d).Le (fun _ c => c ≤ 2 * I.s + 2) := by
  obtain ⟨d1, d2, d3⟩ := hd'
  have hlt := tl_lt hq
  obtain ⟨j, hj, hm⟩ := h.findSample_eq (I.base.n + 1) (tl T sa q) { d with lastRunRnk := q }
    ⟨q, hq, hd_le_tl hq, Nat.le_refl _, rfl, by simp [d2], d3⟩ (by rw [h.nav.n]; have := saAt_lt h.nav.isSA hlt; omega)
  obtain ⟨e, he, hke⟩ := tail_near h.nav.text h.nav.isSA h.sampling (tailAt_iff.2 ⟨q, hq, rfl⟩)
  have hje := hm e hke
  rw [SrIndex.saValueOfRunW]
  refine le_bind (P := fun a c => c = 1 ∧ a = q) (le_call fun a ha => ⟨rfl, by rw [d1, Option.some_inj] at ha; exact ha.symm⟩) ?_
  rintro _ _ ⟨rfl, rfl⟩
  rw [saValueBackwardW]
  refine le_bind (findSampleW_le _ _ _ _).and_val ?_
  rintro ⟨x, j'⟩ c ⟨hcc, hv⟩
  rw [findSampleW_val, hj, Option.some_inj, Prod.mk.injEq] at hv
  obtain ⟨-, rfl⟩ := hv
  dsimp only at hcc ⊢
  exact le_free fun _ _ => by omega

theorem SrIndex.OK.work {I : SrIndex} {T sa T' K : List Nat} (ok : I.OK T' sa K) (hc : Compact T sa I.base.alphabet T')
    {g : Range → Nat → Option (List Nat)} {w : Range → Nat → Cost (List Nat)} {B : Nat}
    (hw : ∀ a b k, a ≤ b → b < T'.length → (w ⟨a, b⟩ k).Le (fun _ c => c ≤ B * (b - a))) :
    WorkWithin (I.locateW g w) T (2 * I.s + 2) B := by
  refine locate_work hc (F := I.functorsWith g) rfl ((ok.nav.backSearchOf (SrIndex.navigates I g)).mono (fun _ h => h.1))
    (ok.nav.toeholdOf SrIndex.creates (SrIndex.navigates I g) rfl (fun _ => rfl)) ?_
  intro Q r d h1 h2 h3 h4 h5
  refine computeAllValuesW_le (computeToeholdW_le ?_) ?_
  · obtain ⟨q, t1, t2, -⟩ := h5
    exact ok.saValueOfRunW_le t2 t1
  · intro r' k hr
    have h4 : r.start < r.stop := h4
    have hb : r.stop ≤ T'.length := h1.2.1
    rw [RIndex.shrink] at hr
    simp only [csub, show 1 ≤ r.stop by omega, if_true, Option.bind_eq_bind, Option.bind_some, Option.pure_def, Option.some_inj] at hr
    subst hr
    refine (hw r.start (r.stop - 1) k (by omega) (by omega)).mono (fun _ c hcc => ?_)
    change c ≤ B * (r.stop - r.start - 1)
    rw [show r.stop - r.start - 1 = r.stop - 1 - r.start by omega]; exact hcc

theorem SrIndex.OK.phiForRangeW_le {I : SrIndex} {T sa K : List Nat} (h : I.OK T sa K) (a b k : Nat) (_hab : a ≤ b) (hb : b < T.length) :
    (I.phiForRangeW ⟨a, b⟩ k).Le (fun _ c => c ≤ (4 * I.s + 7) * (b - a)) := by
  rw [SrIndex.phiForRangeW]
  refine le_ite (fun hlt => ?_) (fun _ => le_ret (Nat.zero_le _))
  dsimp only at hlt ⊢
  refine le_bind (P := fun l c => c ≤ 1 + (b - a) ∧ PiecesRev T sa a b l.reverse) (le_split ?_) ?_
  · intro l e
    obtain ⟨l', e', hp⟩ := split_pieces h.nav hlt (by omega)
    rw [e, Option.some_inj] at e'
    subst e'
    have := hp.rev.size
    rw [List.length_reverse] at this
    exact ⟨by omega, hp.rev⟩
  · rintro l c ⟨hcc, hp⟩
    refine ((h.backOK h.phiOK).backRange_le hp k).mono (fun _ c' hc' => ?_)
    have e' : (4 * I.s + 7) * (b - a) = (4 * I.s + 3) * (b - a) + 4 * (b - a) := by rw [← Nat.add_mul]
    omega

theorem SrIndexValid.OK.phiForRangeW_le {I : SrIndexValid} {T sa K : List Nat} {V : List (Nat × Nat × Nat)} (h : I.OK T sa K V)
    {phi : Nat → Option (Nat × Bool)} (hp : PhiOK T sa I.sr.s (keptOf T sa K) phi) (a b k : Nat) (_hab : a ≤ b) (hb : b < T.length) :
    (I.phiForRangeW phi ⟨a, b⟩ k).Le (fun _ c => c ≤ (4 * I.sr.s + 7) * (b - a)) := by
  rw [SrIndexValid.phiForRangeW]
  refine le_ite (fun hlt => ?_) (fun _ => le_ret (Nat.zero_le _))
  dsimp only at hlt ⊢
  refine (h.sr.backOK hp).backRangeV_le hlt ?_ k
  intro l e
  obtain ⟨l', e', hp⟩ := split_pieces h.sr.nav hlt (by omega)
  rw [e, Option.some_inj] at e'
  subst e'
  exact hp.rev

/-! ## The r-CSAs -/

theorem RCSA.OK.work {β : Type} {I : RCSA} {T sa T' ord : List Nat} {lnk : Nat → Nat} {den : β → Nat → Prop}
    {create : Range → Nat → RangeRunLF → Nat → Option (StepData β)} {init : StepData β} {getV : β → Option Nat} {v : β → Cost Nat}
    (h : I.OK T' sa ord lnk) (hc : Compact T sa I.alphabet T') (hv : RCSA.Variant T' sa den create init getV)
    (hcost : ∀ d, (v d).Le (fun _ c => c ≤ 2)) : WorkWithin (I.locateW (I.functorsWith create init getV) v) T 2 1 := by
  refine locate_work hc (F := I.functorsWith create init getV) rfl ((h.nav.backSearchOf (RCSA.navigates I create init getV)).mono (fun _ h => h.1))
    (h.nav.toeholdOf hv.creates (RCSA.navigates I create init getV) rfl (fun _ => hv.init)) ?_
  intro Q r d h1 h2 h3 h4 h5
  refine computeAllValuesW_le (B := 1 * _) (computeToeholdW_le (hcost _)) ?_
  intro r' k hr
  refine (phiLoopW_le _ _ _).mono (fun _ c hcc => ?_)
  rw [hcc]
  rw [RCSA.shrink, Option.some_inj] at hr
  subst hr
  change r.stop - (r.start + 1) ≤ 1 * (r.stop - r.start - 1)
  omega

theorem RCSABwt.saValueOfRunW_le (I : RCSA) (d : Nat) : (saValueOfRunW I d).Le (fun _ c => c ≤ 2) := by
  rw [saValueOfRunW]
  refine le_bind (P := fun _ c => c = 1) (le_call fun _ _ => rfl) ?_
  rintro run _ rfl
  refine le_bind (P := fun _ c => c = 1) (le_call fun _ _ => rfl) ?_
  rintro s _ rfl
  exact le_pure (Nat.le_refl _)

theorem RCSAPsi.saValueOfRunW_le (I : RCSA) (d : PsiRunData) : (saValueOfRunW I d).Le (fun _ c => c ≤ 2) := by
  rw [saValueOfRunW]
  refine le_bind (P := fun _ c => c = 1) (le_call fun _ _ => rfl) ?_
  rintro run _ rfl
  refine le_bind (P := fun _ c => c = 1) (le_call fun _ _ => rfl) ?_
  rintro s _ rfl
  exact le_pure (Nat.le_refl _)

/-! ## SrCSA and its variants -/

section csa
variable {I : SrCSA} {T sa T' K : List Nat} {O : ForwOps} {Good : FRun → Prop} {den : FData → Nat → Prop} {Strong : FData → Prop}

theorem SrCSA.OK.saValueOfRunW_le (h : I.OK T sa K) (ho : SrCSA.OpsOK O T sa K Good den Strong) {d : FData} {q : Nat} (hq : q < nrun T sa)
    (hden : den d q) : (saValueForwardW O.getSampleData O.psiData (I.n + 2) I.n d).Le (fun _ c => c ≤ 2 * I.s + 3) := by
  obtain ⟨h1, j, -, hj, hm⟩ := h.findSample_head ho hq hden
  obtain ⟨e, he, hke⟩ := head_near h.nav.text h.nav.isSA h.sampling (headAt_iff.2 ⟨q, hq, rfl⟩)
  rw [saValueForwardW]
  have hn : I.n = T.length := h.nav.n
  refine le_bind (findSampleW_le _ _ _ _).and_val ?_
  rintro ⟨x, j'⟩ c ⟨hcc, hv⟩
  rw [findSampleW_val, hn, hj, Option.some_inj, Prod.mk.injEq] at hv
  obtain ⟨-, rfl⟩ := hv
  dsimp only at hcc ⊢
  have hjs : j ≤ I.s + 1 := by
    rcases hm with hm | hm
    · omega
    · have := hm e (by rw [h1]; exact hke)
      omega
  refine le_bind (P := fun _ c => c = 0) (le_free fun _ _ => rfl) ?_
  rintro y _ rfl
  exact le_free fun _ _ => by omega

theorem SrCSA.OK.work (h : I.OK T' sa K) (ho : SrCSA.OpsOK O T' sa K Good den Strong) (hc : Compact T sa I.alphabet T')
    {g : Range → Nat → Option (List Nat)} {w : Range → Nat → Cost (List Nat)} {B : Nat}
    (hw : ∀ a b k, b ≤ T'.length → (w ⟨a, b⟩ k).Le (fun _ c => c ≤ B * (b - a))) :
    WorkWithin (I.locateW O g w) T (2 * I.s + 3) B := by
  refine locate_work hc (F := I.functorsWith O g) rfl ((h.nav.backSearchOf (SrCSA.navigates I O g)).mono (fun _ h => h.1))
    (h.nav.toeholdOf ho.creates (SrCSA.navigates I O g) rfl (fun _ => rfl)) ?_
  intro Q r d h1 h2 h3 h4 h5
  refine computeAllValuesW_le (computeToeholdW_le ?_) ?_
  · obtain ⟨q, t1, t2, -⟩ := h5
    exact h.saValueOfRunW_le ho t2 t1
  · intro r' k hr
    have hb : r.stop ≤ T'.length := h1.2.1
    rw [RCSA.shrink, Option.some_inj] at hr
    subst hr
    exact (hw (r.start + 1) r.stop k hb).mono (fun _ c hcc => by
      change c ≤ B * (r.stop - r.start - 1)
      rw [Nat.sub_sub]; exact hcc)

theorem SrCSA.OK.phiForRangeW_le (h : I.OK T sa K) (ho : SrCSA.OpsOK O T sa K Good den Strong) (a b k : Nat) (hb : b ≤ T.length) :
    (I.phiForRangeW O ⟨a, b⟩ k).Le (fun _ c => c ≤ (4 * I.s + 7) * (b - a)) := by
  rw [SrCSA.phiForRangeW]
  refine le_ite (fun hlt => ?_) (fun _ => le_ret (Nat.zero_le _))
  dsimp only at hlt ⊢
  refine le_bind (P := fun l c => c ≤ 1 + (b - a) ∧ Images T.length id Good a b l) (le_split ?_) ?_
  · intro l e
    obtain ⟨l', e', hp⟩ := ho.range a b hlt hb
    rw [e, Option.some_inj] at e'
    subst e'
    exact ⟨by have := hp.size; omega, hp⟩
  · rintro l c ⟨hcc, hp⟩
    refine ((h.forwOK ho h.phiOK).forwRange_le hp k).mono (fun _ c' hc' => ?_)
    have e := Nat.mul_le_mul_right (b - a) (show 3 * I.s + 1 ≤ 4 * I.s + 3 by omega)
    have e' : (4 * I.s + 7) * (b - a) = (4 * I.s + 3) * (b - a) + 4 * (b - a) := by rw [← Nat.add_mul]
    omega

theorem SrCSAValid.OK.phiForRangeW_le {I : SrCSAValid} {V : List (Nat × Nat)} (h : I.OK T sa K V) (ho : SrCSA.OpsOK O T sa K Good den Strong)
    {phi : Nat → Option (Nat × Bool)} (hp : PhiOKF T sa I.csa.s (keptHd T sa K) phi) (a b k : Nat) (hb : b ≤ T.length) :
    (I.phiForRangeW O phi ⟨a, b⟩ k).Le (fun _ c => c ≤ (4 * I.csa.s + 7) * (b - a)) := by
  rw [SrCSAValid.phiForRangeW]
  refine le_ite (fun hlt => ?_) (fun _ => le_ret (Nat.zero_le _))
  dsimp only at hlt ⊢
  refine ((h.csa.forwOK ho hp).forwRangeV_le hlt ?_ k).mono (fun _ c hcc => Nat.le_trans hcc (Nat.mul_le_mul_right _ (by omega)))
  intro l e
  obtain ⟨l', e', hp⟩ := ho.range a b hlt hb
  rw [e, Option.some_inj] at e'
  subst e'
  exact hp

end csa
end Sri
