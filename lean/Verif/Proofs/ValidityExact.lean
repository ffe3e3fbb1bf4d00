import Verif.Proofs.SrCSAValid
import Verif.Proofs.LegacyParts
import Verif.SpecValidity
/-! # When the value of a sub-sampled phi is declared valid, exactly -/
namespace Sri
set_option autoImplicit false

theorem Compact.headPos_eq {T sa T' : List Nat} {a : Alphabet} (hc : Compact T sa a T') (hT : IsText T) (hsa : IsSA T sa) :
    headPos T' sa = headPos T sa := by
  simp only [headPos, hc.nrun_eq hT hsa, hc.pv_eq, hc.hd_eq hT hsa]

theorem Compact.tailPos_eq {T sa T' : List Nat} {a : Alphabet} (hc : Compact T sa a T') (hT : IsText T) (hsa : IsSA T sa) :
    tailPos T' sa = tailPos T sa := by
  simp only [tailPos, hc.nrun_eq hT hsa, hc.pv_eq, hc.tl_eq hT hsa]

/-- a least member above `p` -/
theorem least_above {M : Nat → Prop} {p m : Nat} (hm : M m) (hpm : p < m) : ∃ x, M x ∧ p < x ∧ x ≤ m ∧ ∀ y, p < y → M y → x ≤ y := by
  induction m using Nat.strong_induction_on with
  | _ m ih =>
    by_cases h : ∃ y, p < y ∧ M y ∧ y < m
    · obtain ⟨y, h1, h2, h3⟩ := h
      obtain ⟨x, a, b, c, d⟩ := ih y h3 h2 h1
      exact ⟨x, a, b, by omega, d⟩
    · refine ⟨m, hm, hpm, Nat.le_refl _, fun y h1 h2 => ?_⟩
      by_contra hc
      exact h ⟨y, h1, h2, by omega⟩

/-- a greatest member below `p` -/
theorem greatest_below {M : Nat → Prop} {p m : Nat} (hm : M m) (hpm : m < p) : ∃ x, M x ∧ x < p ∧ m ≤ x ∧ ∀ y, y < p → M y → y ≤ x := by
  obtain ⟨d, hd⟩ : ∃ d, d = p - m := ⟨_, rfl⟩
  induction d using Nat.strong_induction_on generalizing m with
  | _ d ih =>
    by_cases h : ∃ y, y < p ∧ M y ∧ m < y
    · obtain ⟨y, h1, h2, h3⟩ := h
      obtain ⟨x, a, b, c, e⟩ := ih (p - y) (by omega) h2 h1 rfl
      exact ⟨x, a, b, by omega, e⟩
    · refine ⟨m, hm, hpm, Nat.le_refl _, fun y h1 h2 => ?_⟩
      by_contra hc
      exact h ⟨y, h1, h2, by omega⟩

/-- kept marks, the full marks and the predecessors in both -/
theorem next_kept_iff {M M' : Nat → Prop} {p : Nat} (hs : ∀ q, M' q → M q) :
    (∀ m, M m → p < m → ∃ x, M' x ∧ p < x ∧ x ≤ m) ↔ ∀ m, p < m → M m → (∀ x, p < x → M x → m ≤ x) → M' m := by
  constructor
  · intro h m h1 h2 h3
    obtain ⟨x, a, b, c⟩ := h m h2 h1
    have := h3 x b (hs x a)
    rw [show m = x by omega]; exact a
  · intro h m h1 h2
    obtain ⟨x, a, b, c, d⟩ := least_above h1 h2
    exact ⟨x, h x b a d, b, c⟩

theorem prev_kept_iff {M M' : Nat → Prop} {p : Nat} (hs : ∀ q, M' q → M q) :
    (∀ m, M m → m < p → ∃ x, M' x ∧ x < p ∧ m ≤ x) ↔ ∀ m, m < p → M m → (∀ x, x < p → M x → x ≤ m) → M' m := by
  constructor
  · intro h m h1 h2 h3
    obtain ⟨x, a, b, c⟩ := h m h2 h1
    have := h3 x b (hs x a)
    rw [show m = x by omega]; exact a
  · intro h m h1 h2
    obtain ⟨x, a, b, c, d⟩ := greatest_below h1 h2
    exact ⟨x, h x b a d, b, c⟩

/-- the condition on the distance (`e` = 0 in the library, 1 in the items builder), in terms of the predecessor in the full marks -/
theorem area_back_iff {M M' : Nat → Prop} {v p p' e : Nat} (he : e ≤ 1) (hs : ∀ q, M' q → M q) (hp : CircPred M' v p) (hp' : CircPred M v p')
    (hfirst : ∀ q, M q → ∃ x, M' x ∧ x ≤ q) (hlast : ∀ q, M q → ∃ x, M' x ∧ q ≤ x) :
    ((∀ m, M m → p < m → ∃ x, M' x ∧ p < x ∧ x ≤ m) ∨ ∀ m, M m → p < m → (if p < v then v - p else v + 1) < m - p + e) ↔
      p' = p ∧ (e = 0 → M v → M' v) := by
  by_cases hpv : p < v
  · rw [if_pos hpv]
    have hmax := (hp.2.1 ⟨p, hp.1, hpv⟩).2
    have key : (∀ q, M q → p < q → v ≤ q) ↔ p' = p := by
      constructor
      · intro h
        exact (circ_of_gap hs hp hfirst hlast (fun _ => h)).unique hp' |>.symm
      · rintro rfl q hq hlt
        by_contra hc
        have := (hp'.2.1 ⟨q, hq, by omega⟩).2 q hq (by omega)
        omega
    rw [← key]
    constructor
    · rintro (h | h)
      · refine ⟨fun q hq hlt => ?_, fun _ hv => ?_⟩
        · obtain ⟨x, a, b, c⟩ := h q hq hlt
          by_contra hc
          have := hmax x a (by omega)
          omega
        · obtain ⟨x, a, b, c⟩ := h v hv hpv
          have : x = v := by
            by_contra hc
            have := hmax x a (by omega)
            omega
          rw [← this]; exact a
      · refine ⟨fun q hq hlt => ?_, fun he0 hv => ?_⟩
        · have := h q hq hlt; omega
        · have := h v hv hpv; omega
    · rintro ⟨h1, h2⟩
      by_cases hx : ∃ m, M m ∧ p < m ∧ v - p ≥ m - p + e
      · obtain ⟨m, a, b, c⟩ := hx
        have := h1 m a b
        have hmv : m = v := by omega
        subst hmv
        have hv := h2 (by omega) a
        exact Or.inl (fun q hq hlt => ⟨m, hv, b, h1 q hq hlt⟩)
      · refine Or.inr (fun m hm hlt => ?_)
        by_contra hc
        exact hx ⟨m, hm, hlt, by omega⟩
  · have hno : ∀ q, M' q → v ≤ q := fun q hq => by
      by_contra hc
      exact hpv (hp.2.1 ⟨q, hq, by omega⟩).1
    have hno' : ∀ q, M q → v ≤ q := fun q hq => by
      obtain ⟨x, a, b⟩ := hfirst q hq
      have := hno x a; omega
    have hmax : ∀ q, M q → q ≤ p := fun q hq => by
      obtain ⟨x, a, b⟩ := hlast q hq
      have := hp.2.2 hno x a; omega
    constructor
    · intro _
      refine ⟨?_, fun _ hv => ?_⟩
      · exact (circ_of_gap hs hp hfirst hlast (fun h => absurd h hpv)).unique hp' |>.symm
      · obtain ⟨x, a, b⟩ := hfirst v hv
        have := hno x a
        rw [show v = x by omega]; exact a
    · intro _
      exact Or.inl (fun m hm hlt => by have := hmax m hm; omega)

theorem area_forw_iff {M M' : Nat → Prop} {v p p' : Nat} (hs : ∀ q, M' q → M q) (hp : CircSucc M' v p) (hp' : CircSucc M v p') (hvp : v ≤ p)
    (hfirst : ∀ q, M q → ∃ x, M' x ∧ x ≤ q) (hlast : ∀ q, M q → ∃ x, M' x ∧ q ≤ x) :
    ((∀ m, M m → m < p → ∃ x, M' x ∧ x < p ∧ m ≤ x) ∨ ∀ m, M m → m < p → m < v) ↔ p' = p := by
  have hmin := (hp.2.1 ⟨p, hp.1, hvp⟩).2
  constructor
  · intro h
    refine ((circSucc_of_gap hs hp hfirst hlast (fun _ q hq hlt => ?_)).unique hp').symm
    rcases h with h | h
    · obtain ⟨x, a, b, c⟩ := h q hq hlt
      by_contra hc
      have := hmin x a (by omega)
      omega
    · exact h q hq hlt
  · rintro rfl
    refine Or.inr (fun m hm hlt => ?_)
    by_contra hc
    have := (hp'.2.1 ⟨m, hm, by omega⟩).2 m hm (by omega)
    omega

namespace SrIndexValid
variable {T sa K : List Nat} {I : SrIndexValid} {V : List (Nat × Nat × Nat)}

/-- a kept mark is reported exactly if the mark after it was not kept -/
theorem OK.report_iff (h : I.OK T sa K V) {o p : Nat} (ho : (sortBy (fun x => x) (subPos T sa K))[o]? = some p) :
    o ∉ V.map (·.1) ↔ ∀ m, HeadMark T sa m → p < m → ∃ x, x ∈ subPos T sa K ∧ p < x ∧ x ≤ m := by
  have hn := h.sr.nav.text.pos
  constructor
  · intro hno m hm hlt
    obtain ⟨y, hy, hym⟩ := h.gap o p ho (fun q hq hc => hno (List.mem_map.2 ⟨q, hq, hc⟩)) m hm hlt
    have hnd := subPos_nodup hn h.sr.nav.isSA h.sr.nodup h.sr.lt
    have hs : (sortBy (fun x => x) (subPos T sa K)).Pairwise (fun a b => a < b) := sortBy_strict (by simpa using hnd)
    refine ⟨y, (sortBy_perm _ _).mem_iff.1 (List.mem_of_getElem? hy), ?_, hym⟩
    obtain ⟨l1, rfl⟩ := List.getElem?_eq_some_iff.1 ho
    obtain ⟨l2, rfl⟩ := List.getElem?_eq_some_iff.1 hy
    exact List.pairwise_iff_getElem.1 hs o (o+1) l1 l2 (by omega)
  · intro hall hc
    obtain ⟨q, hq, rfl⟩ := List.mem_map.1 hc
    obtain ⟨g1, g2, g3, g4, g5⟩ := h.entry q hq
    rw [ho, Option.some_inj] at g1
    obtain ⟨x, a, b, c⟩ := hall q.2.2 g4 (by omega)
    have := g3 x (subPos_sub hn x a) (by omega)
    exact g5 (by rw [show q.2.2 = x by omega]; exact a)

/-- the flags of both phi functors -/
theorem OK.flags (h : I.OK T sa K V) {e : Nat} (hw : I.validAreas = V.map (fun q => q.2.2 - q.2.1 + e)) {i : Nat} (h1 : 1 ≤ i) (hi : i < T.length) :
    ∃ o p w okm oka, I.sr.base.predecessor (saAt sa i) = some (o, p) ∧ CircPred (· ∈ subPos T sa K) (saAt sa i) p ∧
      I.phiMark (saAt sa i) = some (w, okm) ∧ I.phiArea (saAt sa i) = some (w, oka) ∧
      (okm = true ↔ ∀ m, HeadMark T sa m → p < m → ∃ x, x ∈ subPos T sa K ∧ p < x ∧ x ≤ m) ∧
      (oka = true ↔ (∀ m, HeadMark T sa m → p < m → ∃ x, x ∈ subPos T sa K ∧ p < x ∧ x ≤ m) ∨
        ∀ m, HeadMark T sa m → p < m → (if p < saAt sa i then saAt sa i - p else saAt sa i + 1) < m - p + e) ∧
      (CircPred (HeadMark T sa) (saAt sa i) p → w = saAt sa (i-1)) := by
  have hn := h.sr.nav.text.pos
  have hlast := sa_ne_last h.sr.nav.text h.sr.nav.isSA h1 hi
  obtain ⟨o, k, p, e1, e2, e3, e4, e5, y, e6, e7, -⟩ := h.sr.pred h1 hi
  have hrep := h.report_iff e3
  set delta := (if p < saAt sa i then saAt sa i - p else saAt sa i + 1) with hdelta
  have hbit := h.valid_bit e4
  have hm : I.phiMark (saAt sa i) = some ((y + delta) % T.length, if o ∈ V.map (·.1) then false else true) := by
    unfold phiMark phiBackward
    simp only [h.sr.nav.n, csub, show 1 ≤ T.length by omega, if_true, Option.bind_eq_bind, Option.bind_some, assertC,
      show saAt sa i ≠ T.length - 1 by omega, ne_eq, not_false_eq_true, decide_true, e1]
    unfold getSampleForPhi validatorDefault
    simp only [e2, hbit, Option.bind_eq_bind, Option.bind_some, e6, cmod, show T.length ≠ 0 by omega, if_false, Option.pure_def, ← hdelta]
  by_cases hmem : o ∈ V.map (·.1)
  · have hrep' := (not_congr hrep).1 (not_not.2 hmem)
    obtain ⟨q, hq, hqo⟩ := List.mem_map.1 hmem
    subst hqo
    have har := h.area hw hq e4
    obtain ⟨g1, g2, g3, g4, g5⟩ := h.entry q hq
    rw [e3, Option.some_inj] at g1
    refine ⟨q.1, p, _, _, !decide (q.2.2 - q.2.1 + e ≤ delta), e1, e5, hm, ?_, ?_, ?_, e7⟩
    · unfold phiArea phiBackward
      simp only [h.sr.nav.n, csub, show 1 ≤ T.length by omega, if_true, Option.bind_eq_bind, Option.bind_some, assertC,
        show saAt sa i ≠ T.length - 1 by omega, ne_eq, not_false_eq_true, decide_true, e1]
      unfold getSampleForPhi validatorArea
      rw [if_pos hmem] at hbit
      cases hr0 : rank0 I.validMarks q.1 with
      | none => rw [hr0] at har; cases har
      | some r0 =>
        rw [hr0, Option.bind_some] at har
        simp only [e2, hbit, Option.bind_eq_bind, Option.bind_some, e6, har, cmod, show T.length ≠ 0 by omega, if_false,
          Bool.false_eq_true, Option.pure_def, ← hdelta]
    · rw [if_pos hmem]
      exact ⟨fun hc => (by cases hc), fun hc => absurd hc hrep'⟩
    · constructor
      · intro hc
        simp only [Bool.not_eq_eq_eq_not, Bool.not_true, decide_eq_false_iff_not, Nat.not_le] at hc
        refine Or.inr (fun m hm hlt => ?_)
        have := g3 m hm (by omega)
        omega
      · rintro (hc | hc)
        · exact absurd hc hrep'
        · have := hc q.2.2 g4 (by omega)
          simp only [Bool.not_eq_eq_eq_not, Bool.not_true, decide_eq_false_iff_not, Nat.not_le]
          omega
  · have hrep' := hrep.1 hmem
    refine ⟨o, p, _, _, true, e1, e5, hm, ?_, ?_, ?_, e7⟩
    · unfold phiArea phiBackward
      simp only [h.sr.nav.n, csub, show 1 ≤ T.length by omega, if_true, Option.bind_eq_bind, Option.bind_some, assertC,
        show saAt sa i ≠ T.length - 1 by omega, ne_eq, not_false_eq_true, decide_true, e1]
      unfold getSampleForPhi validatorArea
      rw [if_neg hmem] at hbit
      simp only [e2, hbit, Option.bind_eq_bind, Option.bind_some, e6, cmod, show T.length ≠ 0 by omega, if_false,
        if_true, Option.pure_def, ← hdelta]
    · rw [if_neg hmem]; exact ⟨fun _ => hrep', fun _ => rfl⟩
    · exact ⟨fun _ => Or.inl hrep', fun _ => rfl⟩

end SrIndexValid

namespace SrCSAValid
variable {T sa K : List Nat} {I : SrCSAValid} {V : List (Nat × Nat)}

theorem OK.report_iff (h : I.OK T sa K V) {o p : Nat} (ho : (sortBy (fun x => x) (K.map (mkOf T sa)))[o]? = some p) :
    o ∉ V.map (·.1) ↔ ∀ m, TailMark T sa m → m < p → ∃ x, x ∈ K.map (mkOf T sa) ∧ x < p ∧ m ≤ x := by
  constructor
  · intro hno m hm hlt
    obtain ⟨j', y, hj, hy, hym⟩ := h.gap o p ho (fun q hq hc => hno (List.mem_map.2 ⟨q, hq, hc⟩)) m hm hlt
    have hs : (sortBy (fun x => x) (K.map (mkOf T sa))).Pairwise (fun a b => a < b) :=
      sortBy_strict (by rw [show (fun x : Nat => x) = id from rfl, List.map_id]; exact h.csa.sub_nodup)
    refine ⟨y, (sortBy_perm _ _).mem_iff.1 (List.mem_of_getElem? hy), ?_, hym⟩
    obtain ⟨l1, rfl⟩ := List.getElem?_eq_some_iff.1 ho
    obtain ⟨l2, rfl⟩ := List.getElem?_eq_some_iff.1 hy
    exact List.pairwise_iff_getElem.1 hs j' o l2 l1 (by omega)
  · intro hall hc
    obtain ⟨q, hq, rfl⟩ := List.mem_map.1 hc
    obtain ⟨x, g1, g2, m, g3, g4, g5, g6⟩ := h.entry q hq
    rw [ho, Option.some_inj] at g1
    subst g1
    obtain ⟨y, a, b, c⟩ := hall m g3 g5
    have := g2 y (h.csa.sub_mark a) b
    exact g4 (by rw [show m = y by omega]; exact a)

/-- the flags of both phi functors -/
theorem OK.flags (h : I.OK T sa K V) {i : Nat} (hi : i < T.length) :
    ∃ o p w okm oka, I.csa.successor (saAt sa i) = some (o, p) ∧ CircSucc (· ∈ K.map (mkOf T sa)) (saAt sa i) p ∧ saAt sa i ≤ p ∧
      I.phiMark (saAt sa i) = some (w, okm) ∧ I.phiArea (saAt sa i) = some (w, oka) ∧
      (okm = true ↔ ∀ m, TailMark T sa m → m < p → ∃ x, x ∈ K.map (mkOf T sa) ∧ x < p ∧ m ≤ x) ∧
      (oka = true ↔ (∀ m, TailMark T sa m → m < p → ∃ x, x ∈ K.map (mkOf T sa) ∧ x < p ∧ m ≤ x) ∨
        ∀ m, TailMark T sa m → m < p → m < saAt sa i) := by
  have hn := h.csa.nav.text.pos
  obtain ⟨o, p, j, y, e1, e2, e3, e4, e5, e6, e7, e8, -, -⟩ := h.csa.succ hi
  have hbit := h.valid_bit e5
  have hrep := h.report_iff e4
  set v := saAt sa i with hv
  have hm : I.phiMark v = some ((y + T.length - (p - v)) % T.length, if o ∈ V.map (·.1) then false else true) := by
    unfold phiMark phiForward
    simp only [e1, Option.bind_eq_bind, Option.bind_some, csub, e7, if_true]
    unfold getSampleForPhi validatorDefault
    simp only [e2, hbit, Option.bind_eq_bind, Option.bind_some, e3, h.csa.nav.n, Option.pure_def, show p - v ≤ y + T.length by omega,
      if_true, cmod, show T.length ≠ 0 by omega, if_false]
  by_cases hmem : o ∈ V.map (·.1)
  · have hrep' := (not_congr hrep).1 (not_not.2 hmem)
    obtain ⟨q, hq, hqo⟩ := List.mem_map.1 hmem
    subst hqo
    have har := area_get h.sorted hq e5
    rw [← h.marks, ← h.areas] at har
    obtain ⟨x, g1, g2, m, g3, g4, g5, g6⟩ := h.entry q hq
    rw [e4, Option.some_inj] at g1
    subst g1
    refine ⟨q.1, p, _, _, !decide (q.2 ≤ p - v), e1, e6, e7, hm, ?_, ?_, ?_⟩
    · unfold phiArea phiForward
      simp only [e1, Option.bind_eq_bind, Option.bind_some, csub, e7, if_true]
      unfold getSampleForPhi validatorArea
      rw [if_pos hmem] at hbit
      cases hr0 : SrIndexValid.rank0 I.validMarks q.1 with
      | none => rw [hr0] at har; cases har
      | some r0 =>
        rw [hr0, Option.bind_some] at har
        simp only [e2, hbit, Option.bind_eq_bind, Option.bind_some, e3, har, h.csa.nav.n, Option.pure_def, show p - v ≤ y + T.length by omega,
          if_true, cmod, show T.length ≠ 0 by omega, if_false, Bool.false_eq_true]
    · rw [if_pos hmem]
      exact ⟨fun hc => (by cases hc), fun hc => absurd hc hrep'⟩
    · constructor
      · intro hc
        simp only [Bool.not_eq_eq_eq_not, Bool.not_true, decide_eq_false_iff_not, Nat.not_le] at hc
        refine Or.inr (fun m' hm' hlt => ?_)
        have := g2 m' hm' hlt
        omega
      · rintro (hc | hc)
        · exact absurd hc hrep'
        · have := hc m g3 g5
          simp only [Bool.not_eq_eq_eq_not, Bool.not_true, decide_eq_false_iff_not, Nat.not_le]
          omega
  · have hrep' := hrep.1 hmem
    refine ⟨o, p, _, _, true, e1, e6, e7, hm, ?_, ?_, ?_⟩
    · unfold phiArea phiForward
      simp only [e1, Option.bind_eq_bind, Option.bind_some, csub, e7, if_true]
      unfold getSampleForPhi validatorArea
      rw [if_neg hmem] at hbit
      simp only [e2, hbit, Option.bind_eq_bind, Option.bind_some, e3, h.csa.nav.n, Option.pure_def, show p - v ≤ y + T.length by omega,
        if_true, cmod, show T.length ≠ 0 by omega, if_false]
    · rw [if_neg hmem]; exact ⟨fun _ => hrep', fun _ => rfl⟩
    · exact ⟨fun _ => Or.inl hrep', fun _ => rfl⟩

end SrCSAValid
end Sri
