import Verif.Proofs.SrIndex
/-! # Validity marks and areas of the kept marks (construct.h:258-280, sr_index.h:546-571, 687-739) -/
namespace Sri
set_option autoImplicit false

theorem skipMarks_spec (target : Nat) : ∀ (l : List Nat), target ∈ l → l.Pairwise (· < ·) →
    ∃ A B, l = A ++ target :: B ∧ skipMarks target l = some B := by
  intro l
  induction l with
  | nil => intro h; simp at h
  | cons m rest ih =>
    intro h hp
    rw [List.pairwise_cons] at hp
    rw [skipMarks]
    by_cases hm : m = target
    · subst hm
      exact ⟨[], rest, rfl, by simp⟩
    · rcases List.mem_cons.1 h with h | h
      · exact absurd h.symm hm
      · obtain ⟨A, B, e1, e2⟩ := ih h hp.2
        exact ⟨m :: A, B, by rw [e1]; rfl, by rw [if_pos hm]; exact e2⟩

/-- what computeSubmarksValidity reports: for every kept mark but the last, either the next mark is kept too, or it is reported with
    the mark that follows it -/
theorem submarksLoop_spec (submarks : List Nat) : ∀ (i submark : Nat) (marks : List Nat),
    (submark :: marks).Pairwise (· < ·) → List.Sublist submarks marks → submarks.getLast? = marks.getLast? →
    ∃ V, submarksLoop i submark marks submarks = some V ∧ V.Pairwise (fun a b => a.1 < b.1) ∧
      (∀ q ∈ V, i ≤ q.1 ∧ q.1 < i + submarks.length ∧ (submark :: submarks)[q.1 - i]? = some q.2.1 ∧ q.2.1 < q.2.2 ∧
        ∀ m ∈ submark :: marks, q.2.1 < m → q.2.2 ≤ m) ∧
      (∀ j x, (submark :: submarks)[j]? = some x → (∀ q ∈ V, q.1 ≠ i + j) →
        ∀ m ∈ submark :: marks, x < m → ∃ y, (submark :: submarks)[j+1]? = some y ∧ y ≤ m) := by
  induction submarks with
  | nil =>
    intro i submark marks hp hs hl
    have : marks = [] := by
      cases marks with
      | nil => rfl
      | cons a l => simp [List.getLast?_cons] at hl
    subst this
    refine ⟨[], by cases i <;> rfl, by simp, by simp, ?_⟩
    intro j x hj _ m hm hx
    have hjx : j = 0 := by
      by_contra hc
      rw [List.getElem?_eq_none (by simp; omega)] at hj; cases hj
    subst hjx
    simp at hj hm
    omega
  | cons next submarks ih =>
    intro i submark marks hp hs hl
    cases marks with
    | nil => simp at hs
    | cons m marks =>
    rw [List.pairwise_cons] at hp
    obtain ⟨hp1, hp2⟩ := hp
    by_cases hm : m = next
    · subst hm
      obtain ⟨V, f1, f2, f3, f4⟩ := ih (i+1) m marks hp2 (by simpa using hs) (by
        cases hsl : submarks with
        | nil =>
          cases hml : marks with
          | nil => rfl
          | cons a l =>
            rw [hsl, hml] at hl
            simp only [List.getLast?_singleton, List.getLast?_cons_cons] at hl
            rw [hml, List.pairwise_cons] at hp2
            have := hp2.1 m (by have := List.mem_of_getLast? hl.symm; exact this)
            omega
        | cons b l2 =>
          rw [hsl] at hl hs
          cases hml : marks with
          | nil => rw [hml] at hs; simp at hs
          | cons a l =>
            rw [hml] at hl
            simpa only [List.getLast?_cons_cons] using hl)
      refine ⟨V, by rw [submarksLoop]; simp [f1], f2, ?_, ?_⟩
      · intro q hq
        obtain ⟨g1, g2, g3, g4, g5⟩ := f3 q hq
        have hms : submark < m := hp1 m (by simp)
        have hxm : m ≤ q.2.1 := by
          have := List.mem_of_getElem? g3
          have hsub : List.Sublist (m :: submarks) (m :: marks) := by simpa using hs
          rcases List.mem_cons.1 (hsub.subset this) with h | h
          · omega
          · rw [List.pairwise_cons] at hp2; have := hp2.1 _ h; omega
        refine ⟨by omega, by simp; omega, ?_, g4, ?_⟩
        · rw [show q.1 - i = (q.1 - (i+1)) + 1 by omega, List.getElem?_cons_succ]; exact g3
        · intro m' hm' hlt
          rcases List.mem_cons.1 hm' with rfl | hm'
          · omega
          · exact g5 m' hm' hlt
      · intro j x hj hq m' hm' hlt
        cases j with
        | zero =>
          simp at hj
          subst hj
          refine ⟨m, by simp, ?_⟩
          rcases List.mem_cons.1 hm' with rfl | hm'
          · omega
          · rcases List.mem_cons.1 hm' with rfl | hm'
            · omega
            · rw [List.pairwise_cons] at hp2; have := hp2.1 _ hm'; omega
        | succ j =>
          rw [List.getElem?_cons_succ] at hj ⊢
          have hsub : List.Sublist (m :: submarks) (m :: marks) := by simpa using hs
          have hxm : submark < x := hp1 x (hsub.subset (List.mem_of_getElem? hj))
          refine f4 j x hj (fun q hq' => by have := hq q hq'; omega) m' ?_ hlt
          rcases List.mem_cons.1 hm' with rfl | hm'
          · omega
          · exact hm'
    · have hsub : List.Sublist (next :: submarks) marks := by
        cases hs with
        | cons _ h => exact h
        | cons_cons _ h => exact absurd rfl hm
      have hp2' := hp2
      rw [List.pairwise_cons] at hp2
      obtain ⟨A, B, e1, e2⟩ := skipMarks_spec next marks (hsub.subset (by simp)) hp2.2
      have hpB : (next :: B).Pairwise (· < ·) := by
        have := hp2.2; rw [e1, List.pairwise_append] at this; exact this.2.1
      have hAn : ∀ a ∈ A, a < next := by
        have := hp2.2; rw [e1, List.pairwise_append] at this
        intro a ha; exact this.2.2 a ha next (by simp)
      have hsB : List.Sublist submarks B := by
        -- drop the part before `next`
        have h1 : List.Sublist (next :: submarks) (A ++ next :: B) := by rw [← e1]; exact hsub
        have : ∀ (A : List Nat), (∀ a ∈ A, a < next) → List.Sublist (next :: submarks) (A ++ next :: B) →
            List.Sublist submarks B := by
          intro A
          induction A with
          | nil => intro _ h; simpa using h
          | cons a A ihA =>
            intro ha h
            rw [List.cons_append] at h
            cases h with
            | cons _ h => exact ihA (fun x hx => ha x (by simp [hx])) h
            | cons_cons _ h => have := ha next (by simp); omega
        exact this A hAn h1
      have hnm : m < next := hp2.1 next (hsub.subset (by simp))
      have hms : submark < m := hp1 m (by simp)
      obtain ⟨V, f1, f2, f3, f4⟩ := ih (i+1) next B hpB hsB (by
        have hl2 : (next :: submarks).getLast? = (next :: B).getLast? := by
          rw [hl, e1, show m :: (A ++ next :: B) = (m :: A) ++ next :: B from rfl, List.getLast?_append_of_ne_nil _ (by simp)]
        cases hsl : submarks with
        | nil =>
          cases hml : B with
          | nil => rfl
          | cons a l =>
            rw [hsl, hml] at hl2
            simp only [List.getLast?_singleton, List.getLast?_cons_cons] at hl2
            rw [hml, List.pairwise_cons] at hpB
            have := hpB.1 next (List.mem_of_getLast? hl2.symm)
            omega
        | cons b l2 =>
          rw [hsl] at hl2 hsB
          cases hml : B with
          | nil => rw [hml] at hsB; simp at hsB
          | cons a l =>
            rw [hml] at hl2
            simpa only [List.getLast?_cons_cons] using hl2)
      have hmem : ∀ x, x ∈ next :: B → x ∈ marks := fun x hx => by rw [e1]; simp at hx ⊢; tauto
      have hmem2 : ∀ m' ∈ submark :: m :: marks, next ≤ m' → m' ∈ next :: B := by
        intro m' hm' hlt
        rcases List.mem_cons.1 hm' with rfl | hm'
        · omega
        · rcases List.mem_cons.1 hm' with rfl | hm'
          · omega
          · rw [e1] at hm'
            rcases List.mem_append.1 hm' with h | h
            · have := hAn m' h; omega
            · exact h
      refine ⟨(i, submark, m) :: V, by rw [submarksLoop]; simp [hm, e2, f1], ?_, ?_, ?_⟩
      · rw [List.pairwise_cons]
        exact ⟨fun q hq => by have := (f3 q hq).1; dsimp only; omega, f2⟩
      · intro q hq
        rcases List.mem_cons.1 hq with rfl | hq
        · refine ⟨Nat.le_refl _, by simp, by simp, hms, ?_⟩
          intro m' hm' hlt
          dsimp only at hlt ⊢
          rcases List.mem_cons.1 hm' with rfl | hm'
          · omega
          · rcases List.mem_cons.1 hm' with rfl | hm'
            · omega
            · have := hp2.1 _ hm'; omega
        · obtain ⟨g1, g2, g3, g4, g5⟩ := f3 q hq
          have hxn : next ≤ q.2.1 := by
            rcases List.mem_cons.1 (List.mem_of_getElem? g3) with h | h
            · omega
            · rw [List.pairwise_cons] at hpB; have := hpB.1 _ (hsB.subset h); omega
          refine ⟨by omega, by simp; omega, ?_, g4, ?_⟩
          · rw [show q.1 - i = (q.1 - (i+1)) + 1 by omega, List.getElem?_cons_succ]; exact g3
          · intro m' hm' hlt
            exact g5 m' (hmem2 m' hm' (by omega)) hlt
      · intro j x hj hq m' hm' hlt
        cases j with
        | zero => exact absurd rfl (hq (i, submark, m) (by simp))
        | succ j =>
          rw [List.getElem?_cons_succ] at hj ⊢
          have hxn : next ≤ x := by
            rcases List.mem_cons.1 (List.mem_of_getElem? hj) with h | h
            · omega
            · rw [List.pairwise_cons] at hpB; have := hpB.1 _ (hsB.subset h); omega
          exact f4 j x hj (fun q hq' => by have := hq q (by simp [hq']); omega) m' (hmem2 m' hm' (by omega)) hlt

/-- computeSubmarksValidity over strictly increasing lists that start and end alike -/
theorem submarksValidity_spec {marks subs : List Nat} (hm : marks.Pairwise (· < ·)) (hs : List.Sublist subs marks)
    (hne : subs ≠ []) (hh : subs.head? = marks.head?) (hl : subs.getLast? = marks.getLast?) :
    ∃ V, computeSubmarksValidity marks subs = some V ∧ V.Pairwise (fun a b => a.1 < b.1) ∧
      (∀ q ∈ V, q.1 + 1 < subs.length ∧ subs[q.1]? = some q.2.1 ∧ q.2.1 < q.2.2 ∧ ∀ m ∈ marks, q.2.1 < m → q.2.2 ≤ m) ∧
      (∀ j x, subs[j]? = some x → (∀ q ∈ V, q.1 ≠ j) → ∀ m ∈ marks, x < m → ∃ y, subs[j+1]? = some y ∧ y ≤ m) := by
  cases subs with
  | nil => simp at hne
  | cons a subs =>
  cases marks with
  | nil => simp at hs
  | cons b marks =>
  simp at hh
  subst hh
  have hs' : List.Sublist subs marks := by simpa using hs
  obtain ⟨V, f1, f2, f3, f4⟩ := submarksLoop_spec subs 0 a marks hm hs' (by
    cases subs with
    | nil =>
      cases marks with
      | nil => rfl
      | cons c l =>
        simp only [List.getLast?_singleton, List.getLast?_cons_cons] at hl
        rw [List.pairwise_cons] at hm
        have := hm.1 a (List.mem_of_getLast? hl.symm)
        omega
    | cons c l =>
      cases marks with
      | nil => simp at hs'
      | cons d l2 => simpa only [List.getLast?_cons_cons] using hl)
  refine ⟨V, f1, f2, ?_, ?_⟩
  · intro q hq
    obtain ⟨g1, g2, g3, g4, g5⟩ := f3 q hq
    exact ⟨by simp; omega, by simpa using g3, g4, g5⟩
  · intro j x hj hq
    exact f4 j x hj (fun q hq' => by have := hq q hq'; omega)

/-- the rest of a strictly increasing list after a kept mark -/
theorem sublist_after {next : Nat} {submarks B : List Nat} : ∀ {A : List Nat}, (∀ a ∈ A, a < next) →
    List.Sublist (next :: submarks) (A ++ next :: B) → List.Sublist submarks B := by
  intro A
  induction A with
  | nil => intro _ h; simpa using h
  | cons a A ihA =>
    intro ha h
    rw [List.cons_append] at h
    cases h with
    | cons _ h => exact ihA (fun x hx => ha x (by simp [hx])) h
    | cons_cons _ h => have := ha next (by simp); omega

/-- every report of computeSubmarksValidity comes from a mark that was not kept -/
theorem submarksLoop_tight (submarks : List Nat) : ∀ (i submark : Nat) (marks : List Nat) (V : List (Nat × Nat × Nat)),
    (submark :: marks).Pairwise (· < ·) → List.Sublist submarks marks → submarksLoop i submark marks submarks = some V →
    ∀ q ∈ V, q.2.2 ∈ marks ∧ q.2.2 ∉ submarks := by
  induction submarks with
  | nil =>
    intro i submark marks V _ _ h q hq
    cases i <;> cases marks <;> simp [submarksLoop] at h <;> subst h <;> simp at hq
  | cons next submarks ih =>
    intro i submark marks V hp hs h q hq
    cases marks with
    | nil => simp at hs
    | cons m marks =>
    rw [List.pairwise_cons] at hp
    obtain ⟨-, hp⟩ := hp
    rw [submarksLoop] at h
    by_cases hm : m = next
    · subst hm
      rw [if_neg (by simp)] at h
      obtain ⟨h1, h2⟩ := ih _ _ _ _ hp (by simpa using hs) h q hq
      rw [List.pairwise_cons] at hp
      have := hp.1 _ h1
      exact ⟨by simp [h1], by simp [h2]; omega⟩
    · rw [if_pos hm] at h
      have hsub : List.Sublist (next :: submarks) marks := by
        cases hs with
        | cons _ h => exact h
        | cons_cons _ h => exact absurd rfl hm
      rw [List.pairwise_cons] at hp
      obtain ⟨A, B, e1, e2⟩ := skipMarks_spec next marks (hsub.subset (by simp)) hp.2
      have hpB := hp.2
      rw [e1, List.pairwise_append] at hpB
      simp only [e2, Option.bind_eq_bind, Option.bind_some] at h
      obtain ⟨V', hV', h⟩ := Option.bind_eq_some_iff.1 h
      injection h with h
      subst h
      have hsB : List.Sublist submarks B := sublist_after (fun a ha => hpB.2.2 a ha next (by simp)) (e1 ▸ hsub)
      rcases List.mem_cons.1 hq with rfl | hq
      · refine ⟨by simp, fun hc => ?_⟩
        have := hp.1 _ (hsub.subset hc)
        dsimp only at this
        omega
      · obtain ⟨h1, h2⟩ := ih _ _ _ _ hpB.2.1 hsB hV' q hq
        have := (List.pairwise_cons.1 hpB.2.1).1 _ h1
        exact ⟨by rw [e1]; simp [h1], by simp [h2]; omega⟩

theorem submarksValidity_tight {marks subs : List Nat} {V : List (Nat × Nat × Nat)} (hm : marks.Pairwise (· < ·)) (hs : List.Sublist subs marks)
    (hh : subs.head? = marks.head?) (h : computeSubmarksValidity marks subs = some V) : ∀ q ∈ V, q.2.2 ∈ marks ∧ q.2.2 ∉ subs := by
  cases subs with
  | nil => cases marks <;> simp [computeSubmarksValidity] at h
  | cons a subs =>
  cases marks with
  | nil => simp at hs
  | cons b marks =>
  simp at hh
  subst hh
  intro q hq
  obtain ⟨h1, h2⟩ := submarksLoop_tight subs 0 a marks V hm (by simpa using hs) h q hq
  have := (List.pairwise_cons.1 hm).1 _ h1
  exact ⟨by simp [h1], by simp [h2]; omega⟩

end Sri
