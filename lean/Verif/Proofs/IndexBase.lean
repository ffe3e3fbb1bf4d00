import Verif.Proofs.Phi
import Verif.Proofs.Alphabet
import Verif.Model.IndexBase
/-! # The backward-search loops of RIndexBase, once and for all -/
namespace Sri
set_option autoImplicit false

theorem saAt_getElem {sa : List Nat} {i : Nat} (h : i < sa.length) : saAt sa i = sa[i] := by
  simp [saAt, List.getD_eq_getElem?_getD, List.getElem?_eq_getElem h]

section
variable {T sa : List Nat}

theorem occursAt_append {X Q : List Nat} {p : Nat} (h : OccursAt (X ++ Q) T p) : OccursAt Q T (p + X.length) := by
  obtain ⟨h1, h2⟩ := h
  rw [List.length_append] at h1 h2
  refine ⟨by omega, ?_⟩
  have := congrArg (List.drop X.length) h2
  rw [List.drop_left, List.drop_take, List.drop_drop] at this
  rwa [show X.length + Q.length - X.length = Q.length by omega] at this

/-- an empty range stays empty whatever is put in front of the pattern -/
theorem isRange_empty_append (hsa : IsSA T sa) {Q : List Nat} {a b : Nat} (hne : Q ≠ []) (h : IsRange Q T sa a b) (hab : ¬ a < b)
    (X : List Nat) : IsRange (X ++ Q) T sa a b := by
  refine ⟨h.1, h.2.1, fun i => ?_⟩
  constructor
  · rintro ⟨h1, h2⟩
    have h3 := occursAt_append h2
    have hq := List.length_pos_iff.2 hne
    have hp : saAt sa i + X.length < T.length := by have := h3.1; omega
    have := (h.2.2 (isaOf sa (saAt sa i + X.length))).1 ⟨isaOf_lt hsa hp, by rw [saAt_isaOf hsa hp]; exact h3⟩
    omega
  · omega

/-- number of `c` before position `i` of the BWT -/
def cnt (T sa : List Nat) (c i : Nat) : Nat := Nat.count (fun j => bwtAt T sa j = c) i

variable {ρ ν δ : Type}

/-- The functors implement backward search over `T` for the symbols satisfying `valid`. -/
structure BackSearch (F : Functors ρ ν δ) (T sa : List Nat) (valid : Nat → Prop) : Prop where
  full : F.bounds (F.fullRange F.bwtSize) = (0, T.length)
  empty : ∀ r, F.isEmpty r = !decide ((F.bounds r).1 < (F.bounds r).2)
  lf : ∀ r c, valid c → (F.bounds r).1 < (F.bounds r).2 → (F.bounds r).2 ≤ T.length →
    ∃ nr, F.lf r c = some nr ∧
      F.bounds (F.toRange nr) = (cumC T c + cnt T sa c (F.bounds r).1, cumC T c + cnt T sa c (F.bounds r).2)

theorem BackSearch.mono {F : Functors ρ ν δ} {v w : Nat → Prop} (h : BackSearch F T sa v) (hvw : ∀ c, w c → v c) :
    BackSearch F T sa w := ⟨h.full, h.empty, fun r c hc => h.lf r c (hvw c hc)⟩

theorem countLoop_spec (hT : IsText T) (hsa : IsSA T sa) {F : Functors ρ ν δ} {valid : Nat → Prop} (hF : BackSearch F T sa valid)
    (hv : ∀ c, valid c → c ≠ 0) (L : List Nat) (hL : ∀ c ∈ L, valid (F.getSymbol c)) (Q : List Nat) (r : ρ)
    (hr : IsRange Q T sa (F.bounds r).1 (F.bounds r).2) :
    ∃ r', F.countLoop L r = some r' ∧
      IsRange ((L.map F.getSymbol).reverse ++ Q) T sa (F.bounds r').1 (F.bounds r').2 := by
  induction L generalizing Q r with
  | nil => exact ⟨r, rfl, hr⟩
  | cons c L ih =>
    rw [Functors.countLoop, hF.empty]
    by_cases hlt : (F.bounds r).1 < (F.bounds r).2
    · rw [if_neg (by simp [hlt])]
      obtain ⟨nr, e1, e2⟩ := hF.lf r _ (hL c (by simp)) hlt hr.2.1
      have hstep := backward_step hT hsa (hv _ (hL c (by simp))) hr
      obtain ⟨r', e3, e4⟩ := ih (fun d hd => hL d (by simp [hd])) (F.getSymbol c :: Q) (F.toRange nr)
        (by rw [e2]; exact hstep)
      refine ⟨r', ?_, ?_⟩
      · rw [e1]; exact e3
      · simpa using e4
    · rw [if_pos (by simp [hlt])]
      refine ⟨r, rfl, ?_⟩
      apply isRange_empty_append hsa _ hr hlt
      rintro rfl
      have h0 := isRange_nil hsa
      have hn := hT.pos
      have h1 := (h0.2.2 0).2 ⟨by omega, hn⟩
      have := (hr.2.2 0).1 h1
      omega

/-- **Count** reports the interval of the suffixes that start with the pattern. -/
theorem count_spec (hT : IsText T) (hsa : IsSA T sa) {F : Functors ρ ν δ} {valid : Nat → Prop} (hF : BackSearch F T sa valid)
    (hv : ∀ c, valid c → c ≠ 0) (P : List Nat) (hP : ∀ c ∈ P, valid (F.getSymbol c)) :
    ∃ a b, F.count P = some (a, b) ∧ IsRange (P.map F.getSymbol) T sa a b := by
  obtain ⟨r', e1, e2⟩ := countLoop_spec hT hsa hF hv P.reverse (fun c hc => hP c (by simpa using hc)) []
    (F.fullRange F.bwtSize) (by rw [hF.full]; exact isRange_nil hsa)
  refine ⟨(F.bounds r').1, (F.bounds r').2, ?_, ?_⟩
  · unfold Functors.count; rw [e1]; rfl
  · simpa [List.map_reverse] using e2

/-- Toehold bookkeeping: `TH Q i r d` says that after reading the suffix `Q` of the pattern, with `i` characters still to be
    read, `d` identifies the toehold of the non-empty range `r`. -/
structure Toehold (F : Functors ρ ν δ) (T sa : List Nat) (valid : Nat → Prop)
    (TH : List Nat → Nat → ρ → δ → Prop) : Prop where
  first : ∀ c i k nr, valid c → F.lf (F.fullRange F.bwtSize) c = some nr →
    ∃ d, F.update (F.fullRange F.bwtSize) nr c i (F.initial k) = some d ∧
      ((F.bounds (F.toRange nr)).1 < (F.bounds (F.toRange nr)).2 → TH [c] i (F.toRange nr) d)
  step : ∀ Q c i r nr d, valid c → (F.bounds r).2 ≤ T.length → (F.bounds r).1 < (F.bounds r).2 →
    TH Q (i+1) r d → F.lf r c = some nr →
    ∃ d', F.update r nr c i d = some d' ∧
      ((F.bounds (F.toRange nr)).1 < (F.bounds (F.toRange nr)).2 → TH (c :: Q) i (F.toRange nr) d')

theorem Toehold.mono {F : Functors ρ ν δ} {v w : Nat → Prop} {TH : List Nat → Nat → ρ → δ → Prop} (h : Toehold F T sa v TH)
    (hvw : ∀ c, w c → v c) : Toehold F T sa w TH :=
  ⟨fun c i k nr hc => h.first c i k nr (hvw c hc), fun Q c i r nr d hc => h.step Q c i r nr d (hvw c hc)⟩

theorem locateLoop_spec (hT : IsText T) (hsa : IsSA T sa) {F : Functors ρ ν δ} {valid : Nat → Prop} (hF : BackSearch F T sa valid)
    {TH : List Nat → Nat → ρ → δ → Prop} (hTH : Toehold F T sa valid TH) (hv : ∀ c, valid c → c ≠ 0)
    (L : List Nat) (hL : ∀ c ∈ L, valid (F.getSymbol c)) (Q : List Nat) (hQ : Q ≠ []) (r : ρ) (d : δ)
    (hr : IsRange Q T sa (F.bounds r).1 (F.bounds r).2)
    (hd : (F.bounds r).1 < (F.bounds r).2 → TH Q L.length r d) :
    ∃ r' d', F.locateLoop L r d = some (r', d') ∧
      IsRange ((L.map F.getSymbol).reverse ++ Q) T sa (F.bounds r').1 (F.bounds r').2 ∧
      ((F.bounds r').1 < (F.bounds r').2 → TH ((L.map F.getSymbol).reverse ++ Q) 0 r' d') := by
  induction L generalizing Q r d with
  | nil => exact ⟨r, d, rfl, hr, hd⟩
  | cons c L ih =>
    rw [Functors.locateLoop, hF.empty]
    by_cases hlt : (F.bounds r).1 < (F.bounds r).2
    · rw [if_neg (by simp [hlt])]
      obtain ⟨nr, e1, e2⟩ := hF.lf r _ (hL c (by simp)) hlt hr.2.1
      obtain ⟨d1, f1, f2⟩ := hTH.step Q (F.getSymbol c) L.length r nr d (hL c (by simp)) hr.2.1 hlt (hd hlt) e1
      have hstep := backward_step hT hsa (hv _ (hL c (by simp))) hr
      obtain ⟨r', d', e3, e4, e5⟩ := ih (fun d hd => hL d (by simp [hd])) (F.getSymbol c :: Q) (by simp) (F.toRange nr) d1
        (by rw [e2]; exact hstep) f2
      refine ⟨r', d', ?_, ?_, ?_⟩
      · simp only [e1, Option.bind_eq_bind, Option.bind_some, f1]; exact e3
      · simpa using e4
      · simpa using e5
    · rw [if_pos (by simp [hlt])]
      exact ⟨r, d, rfl, isRange_empty_append hsa hQ hr hlt _, fun h => absurd h hlt⟩

/-- **Locate**, for any way `out a b` of listing the values of the range. -/
theorem locate_spec (hT : IsText T) (hsa : IsSA T sa) {F : Functors ρ ν δ} {valid : Nat → Prop} (hF : BackSearch F T sa valid)
    {TH : List Nat → Nat → ρ → δ → Prop} (hTH : Toehold F T sa valid TH) (hv : ∀ c, valid c → c ≠ 0)
    {out : Nat → Nat → List Nat}
    (hout : ∀ Q r d, IsRange Q T sa (F.bounds r).1 (F.bounds r).2 → Q ≠ [] → (∀ c ∈ Q, c ≠ 0) →
      (F.bounds r).1 < (F.bounds r).2 → TH Q 0 r d →
      F.computeAll r d = some (out (F.bounds r).1 (F.bounds r).2))
    (P : List Nat) (hne : P ≠ []) (hP : ∀ c ∈ P, valid (F.getSymbol c)) :
    ∃ a b, F.count P = some (a, b) ∧ IsRange (P.map F.getSymbol) T sa a b ∧
      F.locate P = some (if a < b then out a b else []) := by
  obtain ⟨a, b, hc1, hc2⟩ := count_spec hT hsa hF hv P hP
  refine ⟨a, b, hc1, hc2, ?_⟩
  obtain ⟨c, L, hcl⟩ : ∃ c L, P.reverse = c :: L := by
    cases h : P.reverse with
    | nil => simp at h; exact absurd h hne
    | cons c L => exact ⟨c, L, rfl⟩
  have hPr : ∀ d ∈ c :: L, valid (F.getSymbol d) := fun d hd => hP d (by rw [← List.mem_reverse, hcl]; exact hd)
  have hn := hT.pos
  have hlt : (F.bounds (F.fullRange F.bwtSize)).1 < (F.bounds (F.fullRange F.bwtSize)).2 := by rw [hF.full]; exact hn
  have h0 : IsRange [] T sa (F.bounds (F.fullRange F.bwtSize)).1 (F.bounds (F.fullRange F.bwtSize)).2 := by
    rw [hF.full]; exact isRange_nil hsa
  obtain ⟨nr, e1, e2⟩ := hF.lf _ _ (hPr c (by simp)) hlt h0.2.1
  obtain ⟨d1, f1, f2⟩ := hTH.first (F.getSymbol c) L.length (P.length - 1) nr (hPr c (by simp)) e1
  have hstep := backward_step hT hsa (hv _ (hPr c (by simp))) h0
  obtain ⟨r', d', e3, e4, e5⟩ := locateLoop_spec hT hsa hF hTH hv L (fun d hd => hPr d (by simp [hd])) [F.getSymbol c] (by simp)
    (F.toRange nr) d1 (by rw [e2]; exact hstep) f2
  have hpat : (L.map F.getSymbol).reverse ++ [F.getSymbol c] = P.map F.getSymbol := by
    have := congrArg List.reverse hcl
    rw [List.reverse_reverse, List.reverse_cons] at this
    rw [this]; simp [List.map_reverse]
  rw [hpat] at e4 e5
  -- the loop of Count reaches the same range
  have hcl2 : F.countLoop (c :: L) (F.fullRange F.bwtSize) = some r' := by
    have key : ∀ (M : List Nat) (r : ρ) (d : δ) (r' : ρ) (d' : δ), F.locateLoop M r d = some (r', d') →
        F.countLoop M r = some r' := by
      intro M
      induction M with
      | nil => intro r d r' d' h; simp only [Functors.locateLoop, Option.some.injEq, Prod.mk.injEq] at h
               rw [Functors.countLoop, h.1]
      | cons m M ihM =>
        intro r d r' d' h
        rw [Functors.locateLoop] at h
        rw [Functors.countLoop]
        split at h
        · rename_i he; rw [if_pos he]
          simp only [Option.some.injEq, Prod.mk.injEq] at h; rw [h.1]
        · rename_i he; rw [if_neg he]
          simp only [Option.bind_eq_bind, Option.bind_eq_some_iff] at h
          obtain ⟨nr, h1, d1, h2, h3⟩ := h
          rw [h1]; exact ihM _ _ _ _ h3
    rw [Functors.countLoop, hF.empty, if_neg (by simp [hlt]), e1]
    exact key L _ _ _ _ e3
  have hab : (a, b) = F.bounds r' := by
    have := hc1
    unfold Functors.count at this
    rw [hcl, hcl2] at this
    simpa using this.symm
  have hall : ∀ d ∈ P.map F.getSymbol, d ≠ 0 := by
    intro d hd
    obtain ⟨x, hx, rfl⟩ := List.mem_map.1 hd
    exact hv _ (hP x hx)
  have hloop : F.locateLoop P.reverse (F.fullRange F.bwtSize) (F.initial (P.length - 1)) = some (r', d') := by
    rw [hcl, Functors.locateLoop, hF.empty, if_neg (by simp [hlt])]
    simp only [e1, Option.bind_eq_bind, Option.bind_some, f1]; exact e3
  unfold Functors.locate
  rw [hloop]
  simp only [Option.bind_eq_bind, Option.bind_some, hF.empty]
  rw [← hab]
  by_cases hlt' : a < b
  · rw [if_neg (by simp [hlt']), if_pos hlt']
    have h1 : (F.bounds r').1 = a := by rw [← hab]
    have h2 : (F.bounds r').2 = b := by rw [← hab]
    have := hout (P.map F.getSymbol) r' d' e4 (by simpa using hne) hall (by omega) (e5 (by omega))
    rw [h1, h2] at this; exact this
  · rw [if_pos (by simp [hlt']), if_neg hlt']; rfl

/-- values of the range from its last to its first position -/
def valuesDown (sa : List Nat) (a b : Nat) : List Nat := ((List.range' a (b - a)).map (saAt sa)).reverse

/-- values of the range from its first to its last position -/
def valuesUp (sa : List Nat) (a b : Nat) : List Nat := (List.range' a (b - a)).map (saAt sa)

/-- the values of the range of `P` are the occurrences of `P` -/
theorem values_perm (hsa : IsSA T sa) {P : List Nat} {a b : Nat} (hne : P ≠ []) (h : IsRange P T sa a b) :
    (valuesUp sa a b).Perm (occurrences P T) := by
  have hnd : (valuesUp sa a b).Nodup := by
    rw [valuesUp]
    refine List.Nodup.map_on ?_ (List.nodup_range')
    intro x hx y hy hxy
    rw [List.mem_range'_1] at hx hy
    have := h.2.1
    exact saAt_inj hsa (by omega) (by omega) hxy
  have hnd2 : (occurrences P T).Nodup := by unfold occurrences; exact List.nodup_range.filter _
  rw [List.perm_ext_iff_of_nodup hnd hnd2]
  intro p
  simp only [valuesUp, List.mem_map, occurrences, List.mem_filter, List.mem_range, decide_eq_true_eq, List.mem_range'_1]
  have hl := List.length_pos_iff.2 hne
  constructor
  · rintro ⟨i, hi, rfl⟩
    have h1 := (h.2.2 i).2 (by omega)
    exact ⟨by have := saAt_lt hsa h1.1; omega, h1.2⟩
  · rintro ⟨h1, h2⟩
    have hp : p < T.length := by have := h2.1; omega
    refine ⟨isaOf sa p, ?_, saAt_isaOf hsa hp⟩
    have := (h.2.2 (isaOf sa p)).1 ⟨isaOf_lt hsa hp, by rw [saAt_isaOf hsa hp]; exact h2⟩
    omega

theorem saSlice_eq (hsa : IsSA T sa) {a b : Nat} (hb : b ≤ T.length) : saSlice sa a b = valuesUp sa a b := by
  apply List.ext_getElem?
  intro i
  rw [saSlice, valuesUp, List.getElem?_take, List.getElem?_drop, List.getElem?_map]
  by_cases h : i < b - a
  · have hl : a + i < sa.length := by rw [hsa.length]; omega
    rw [if_pos h, List.getElem?_range' h, List.getElem?_eq_getElem hl]
    simp [saAt, List.getD_eq_getElem?_getD, List.getElem?_eq_getElem hl]
  · rw [if_neg h, List.getElem?_eq_none (by simp; omega)]; rfl

/-- transport of a range over the compacted text to the text itself -/
theorem interval_of_range {a : Alphabet} {T' P : List Nat} (hc : Compact T sa a T') (hP : ∀ c ∈ P, c ∈ T) {x y : Nat}
    (h : IsRange (P.map a.char2comp) T' sa x y) : IsInterval P T sa x y := by
  have hl := hc.isSA.length
  refine ⟨h.1, by rw [hl]; exact h.2.1, fun i hi => ?_⟩
  rw [← h.2.2 i, MatchAt, ← hc.occ P hP]
  have : saAt sa i = sa[i] := by simp [saAt, List.getD_eq_getElem?_getD, List.getElem?_eq_getElem hi]
  rw [this]
  constructor
  · intro h1; exact ⟨by omega, h1⟩
  · intro h1; exact h1.2

/-- the reports of an index that lists the values of its ranges are the occurrences -/
theorem perm_of_range {a : Alphabet} {T' P : List Nat} (hc : Compact T sa a T') (hne : P ≠ []) (hP : ∀ c ∈ P, c ∈ T) {x y : Nat}
    (h : IsRange (P.map a.char2comp) T' sa x y) : (saSlice sa x y).Perm (occurrences P T) := by
  rw [saSlice_eq hc.isSA h.2.1]
  have := values_perm hc.isSA (by simpa using hne) h
  refine this.trans ?_
  unfold occurrences
  rw [hc.len]
  have : (fun p => decide (OccursAt (P.map a.char2comp) T' p)) = fun p => decide (OccursAt P T p) := by
    funext p; simp only [hc.occ P hP]
  rw [this]

/-- The statement all exactness properties share. `up` tells the order of the reports. -/
theorem exact_of {a : Alphabet} {T' : List Nat} (hc : Compact T sa a T') {F : Functors ρ ν δ} (hg : F.getSymbol = a.char2comp)
    (hF : BackSearch F T' sa (fun c => c ∈ T' ∧ c ≠ 0)) {TH : List Nat → Nat → ρ → δ → Prop}
    (hTH : Toehold F T' sa (fun c => c ∈ T' ∧ c ≠ 0) TH)
    {out : Nat → Nat → List Nat}
    (hout : ∀ Q r d, IsRange Q T' sa (F.bounds r).1 (F.bounds r).2 → Q ≠ [] → (∀ c ∈ Q, c ≠ 0) →
      (F.bounds r).1 < (F.bounds r).2 → TH Q 0 r d →
      F.computeAll r d = some (out (F.bounds r).1 (F.bounds r).2))
    {P : List Nat} (hP : IsPattern P T) :
    ∃ x y, F.count P = some (x, y) ∧ IsInterval P T sa x y ∧ (saSlice sa x y).Perm (occurrences P T) ∧
      F.locate P = some (if x < y then out x y else []) := by
  have hsym : ∀ c ∈ P, F.getSymbol c ∈ T' ∧ F.getSymbol c ≠ 0 := by
    intro c h
    rw [hg]
    exact ⟨hc.mem c (hP.2 c h).1, hc.pos c (hP.2 c h).1 (hP.2 c h).2⟩
  obtain ⟨x, y, e1, e2, e3⟩ := locate_spec hc.text hc.isSA hF hTH (fun c h => h.2) hout P hP.1 hsym
  rw [hg] at e2
  exact ⟨x, y, e1, interval_of_range hc (fun c h => (hP.2 c h).1) e2,
    perm_of_range hc hP.1 (fun c h => (hP.2 c h).1) e2, e3⟩

/-- Count alone, for any pattern, the empty one included. -/
theorem count_exact_of {a : Alphabet} {T' : List Nat} (hc : Compact T sa a T') {F : Functors ρ ν δ}
    (hg : F.getSymbol = a.char2comp) (hF : BackSearch F T' sa (fun c => c ∈ T' ∧ c ≠ 0))
    {P : List Nat} (hP : ∀ c ∈ P, c ∈ T ∧ c ≠ 0) :
    ∃ x y, F.count P = some (x, y) ∧ IsInterval P T sa x y := by
  obtain ⟨x, y, e1, e2⟩ := count_spec hc.text hc.isSA hF (fun c h => h.2) P (fun c h => by
    rw [hg]; exact ⟨hc.mem c (hP c h).1, hc.pos c (hP c h).1 (hP c h).2⟩)
  rw [hg] at e2
  exact ⟨x, y, e1, interval_of_range hc (fun c h => (hP c h).1) e2⟩

theorem valuesDown_eq (hsa : IsSA T sa) {a b : Nat} (hb : b ≤ T.length) : valuesDown sa a b = (saSlice sa a b).reverse := by
  rw [saSlice_eq hsa hb]; rfl

theorem saSlice_nil {sa : List Nat} {a b : Nat} (h : ¬ a < b) : saSlice sa a b = [] := by
  rw [saSlice, show b - a = 0 by omega, List.take_zero]

theorem saSlice_length {sa : List Nat} {a b : Nat} (hb : b ≤ sa.length) : (saSlice sa a b).length = b - a := by
  rw [saSlice, List.length_take, List.length_drop]; omega

/-! ## the terminator as a pattern character -/

theorem cumC_zero : cumC T 0 = 0 := by simp [cumC]

/-- the terminator occurs once in the BWT, where the suffix array holds 0 -/
theorem cnt_zero (hT : IsText T) (hsa : IsSA T sa) {i : Nat} (h : i ≤ T.length) :
    cnt T sa 0 i = if isaOf sa 0 < i then 1 else 0 := by
  have hn := hT.pos
  induction i with
  | zero => simp [cnt]
  | succ i ih =>
    have ih := ih (by omega)
    have e : cnt T sa 0 (i+1) = cnt T sa 0 i + if bwtAt T sa i = 0 then 1 else 0 := by rw [cnt, Nat.count_succ]; rfl
    rw [e, ih]
    have hz : bwtAt T sa i = 0 ↔ i = isaOf sa 0 := by
      rw [bwtAt_zero_iff hT hsa (by omega)]
      constructor
      · intro h0
        exact saAt_inj hsa (by omega) (isaOf_lt hsa hn) (by rw [h0, saAt_isaOf hsa hn])
      · rintro rfl; exact saAt_isaOf hsa hn
    by_cases h1 : i = isaOf sa 0
    · rw [if_neg (by omega), if_pos (hz.2 h1), if_pos (by omega)]
    · rw [if_neg (fun h => h1 (hz.1 h))]
      by_cases h2 : isaOf sa 0 < i
      · rw [if_pos h2, if_pos (by omega)]
      · rw [if_neg h2, if_neg (by omega)]

/-- a backward step with the symbol 0 after reading `Q`: the range becomes `[0,1)` exactly when the text starts with `Q` -/
theorem zero_step (hT : IsText T) (hsa : IsSA T sa) {Q : List Nat} {a b : Nat} (h : IsRange Q T sa a b) :
    (OccursAt Q T 0 → cumC T 0 + cnt T sa 0 a = 0 ∧ cumC T 0 + cnt T sa 0 b = 1) ∧
    (¬ OccursAt Q T 0 → cumC T 0 + cnt T sa 0 a = cumC T 0 + cnt T sa 0 b) := by
  have hn := hT.pos
  have hm := h.2.2 (isaOf sa 0)
  rw [MatchAt, saAt_isaOf hsa hn] at hm
  have hlt := isaOf_lt hsa hn
  have := h.1
  have := h.2.1
  rw [cumC_zero, cnt_zero hT hsa (by omega), cnt_zero hT hsa (by omega)]
  constructor
  · intro ho
    have := hm.1 ⟨hlt, ho⟩
    rw [if_neg (by omega), if_pos (by omega)]; simp
  · intro ho
    have : ¬ (a ≤ isaOf sa 0 ∧ isaOf sa 0 < b) := fun hc => ho (hm.2 hc).2
    by_cases h1 : isaOf sa 0 < a
    · rw [if_pos h1, if_pos (by omega)]
    · rw [if_neg h1, if_neg (by omega)]

theorem countLoop_empty {F : Functors ρ ν δ} {v : Nat → Prop} (hF : BackSearch F T sa v) (L : List Nat) (r : ρ)
    (h : ¬ (F.bounds r).1 < (F.bounds r).2) : F.countLoop L r = some r := by
  cases L with
  | nil => rfl
  | cons c L => rw [Functors.countLoop, hF.empty, if_pos (by simp [h])]

theorem countLoop_append {F : Functors ρ ν δ} {v : Nat → Prop} (hF : BackSearch F T sa v) (L M : List Nat) (r : ρ) :
    F.countLoop (L ++ M) r = (F.countLoop L r).bind (F.countLoop M) := by
  induction L generalizing r with
  | nil => rfl
  | cons c L ih =>
    rw [List.cons_append, Functors.countLoop, Functors.countLoop]
    by_cases h : F.isEmpty r = true
    · rw [if_pos h, if_pos h, Option.bind_some]
      rw [hF.empty] at h
      exact (countLoop_empty hF M r (by simpa using h)).symm
    · rw [if_neg h, if_neg h]
      cases hx : F.lf r (F.getSymbol c) with
      | none => rfl
      | some nr => exact ih _

/-- what the code does with an absent character `x` (compact symbol 0), read right after `Q` -/
theorem count_absent (hT : IsText T) (hsa : IsSA T sa) {F : Functors ρ ν δ} (hF : BackSearch F T sa (· ∈ T))
    {x : Nat} (hx : F.getSymbol x = 0) (Q : List Nat) (hQ : ∀ c ∈ Q, F.getSymbol c ∈ T ∧ F.getSymbol c ≠ 0) (X : List Nat) :
    (OccursAt (Q.map F.getSymbol) T 0 → F.count (x :: Q) = some (0, 1)) ∧
    (¬ OccursAt (Q.map F.getSymbol) T 0 → ∃ a, F.count (X ++ x :: Q) = some (a, a)) := by
  have h0 : (0 : Nat) ∈ T := by obtain ⟨u, rfl, _⟩ := hT; simp
  obtain ⟨r, e1, e2⟩ := countLoop_spec hT hsa (hF.mono (fun c h => h.1) : BackSearch F T sa (fun c => c ∈ T ∧ c ≠ 0))
    (fun c h => h.2) Q.reverse (fun c hc => hQ c (by simpa using hc)) []
    (F.fullRange F.bwtSize) (by rw [hF.full]; exact isRange_nil hsa)
  have e2' : IsRange (Q.map F.getSymbol) T sa (F.bounds r).1 (F.bounds r).2 := by simpa [List.map_reverse] using e2
  obtain ⟨z1, z2⟩ := zero_step hT hsa e2'
  constructor
  · intro ho
    have hlt : (F.bounds r).1 < (F.bounds r).2 := by
      have hn := hT.pos
      have := (e2'.2.2 (isaOf sa 0)).1 ⟨isaOf_lt hsa hn, by rw [saAt_isaOf hsa hn]; exact ho⟩
      omega
    obtain ⟨nr, f1, f2⟩ := hF.lf r 0 h0 hlt e2'.2.1
    unfold Functors.count
    rw [List.reverse_cons, countLoop_append hF, e1, Option.bind_some, Functors.countLoop, hF.empty,
      if_neg (by simp [hlt]), hx, f1]
    simp only [Option.bind_eq_bind, Option.bind_some, Functors.countLoop, f2, (z1 ho).1, (z1 ho).2]
    rfl
  · intro ho
    unfold Functors.count
    rw [List.reverse_append, List.reverse_cons, countLoop_append hF, countLoop_append hF, e1, Option.bind_some, Functors.countLoop, hF.empty]
    by_cases hlt : (F.bounds r).1 < (F.bounds r).2
    · obtain ⟨nr, f1, f2⟩ := hF.lf r 0 h0 hlt e2'.2.1
      rw [if_neg (by simp [hlt]), hx, f1]
      simp only [Option.bind_eq_bind, Option.bind_some, Functors.countLoop]
      rw [countLoop_empty hF _ _ (by rw [f2, z2 ho]; simp)]
      refine ⟨cumC T 0 + cnt T sa 0 (F.bounds r).2, ?_⟩
      simp only [Option.bind_some, f2, z2 ho]
      rfl
    · rw [if_pos (by simp [hlt]), Option.bind_some, countLoop_empty hF _ _ hlt]
      refine ⟨(F.bounds r).1, ?_⟩
      simp only [Option.bind_eq_bind, Option.bind_some]
      have := e2'.1
      change some (F.bounds r) = _
      congr 1
      ext
      · rfl
      · omega

end
end Sri
