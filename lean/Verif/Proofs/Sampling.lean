import Verif.Model.Sampling
import Verif.Proofs.Marks
/-! # What computeSampling keeps -/
namespace Sri
set_option autoImplicit false

/-- `d` lies strictly between two neighbours of the list whose values are at most `s` apart -/
def Bracketed (v : Nat → Nat) (s : Nat) (L : List Nat) (d : Nat) : Prop :=
  ∃ A a b B, L = A ++ a :: b :: B ∧ v a < v d ∧ v d < v b ∧ v b - v a ≤ s

theorem Bracketed.cons {v : Nat → Nat} {s d : Nat} {L : List Nat} (x : Nat) (h : Bracketed v s L d) : Bracketed v s (x :: L) d := by
  obtain ⟨A, a, b, B, rfl, h1, h2, h3⟩ := h
  exact ⟨x :: A, a, b, B, rfl, h1, h2, h3⟩

theorem samplingLoop_spec (s : Nat) (values req : List Nat) (rest : List Nat) :
    ∀ (k0 p : Nat), (∀ x ∈ p :: rest, x < values.length) →
      (k0 :: p :: rest).Pairwise (fun a b => values.getD a 0 < values.getD b 0) →
      ∃ h t, samplingLoop s values req (values.getD k0 0) p (values.getD p 0) rest = some (h :: t) ∧
        List.Sublist (h :: t) (p :: rest) ∧ (h :: t).getLast? = (p :: rest).getLast? ∧
        (∀ x ∈ p :: rest, x ∈ req → x ∈ h :: t) ∧
        (h = p ∨ (values.getD p 0 < values.getD h 0 ∧ values.getD h 0 - values.getD k0 0 ≤ s)) ∧
        (∀ d ∈ p :: rest, d ∉ h :: t → Bracketed (fun i => values.getD i 0) s (k0 :: h :: t) d) := by
  induction rest with
  | nil =>
    intro k0 p _ _
    refine ⟨p, [], rfl, List.Sublist.refl _, rfl, fun x hx _ => hx, Or.inl rfl, fun d hd hnd => absurd hd hnd⟩
  | cons c rest ih =>
    intro k0 p hb hp
    have hc : c < values.length := hb c (by simp)
    have hval : values[c]? = some (values.getD c 0) := by
      rw [List.getD_eq_getElem?_getD, List.getElem?_eq_getElem hc]; rfl
    have hp0 := hp
    rw [List.pairwise_cons, List.pairwise_cons, List.pairwise_cons] at hp
    obtain ⟨q1, q2, q3, q4⟩ := hp
    rw [samplingLoop]
    simp only [hval, Option.bind_eq_bind, Option.bind_some]
    have hlt : ¬ values.getD c 0 < values.getD k0 0 := by have := q1 c (by simp); omega
    rw [if_neg hlt]
    by_cases hcond : s < values.getD c 0 - values.getD k0 0 ∨ p ∈ req
    · obtain ⟨h, t, e1, e2, e3, e4, e5, e6⟩ := ih p c (fun x hx => hb x (by simp at hx ⊢; tauto))
        (by rw [List.pairwise_cons] at hp0; exact hp0.2)
      refine ⟨p, h :: t, ?_, e2.cons_cons p, ?_, ?_, Or.inl rfl, ?_⟩
      · rw [if_pos hcond, e1]; rfl
      · rw [List.getLast?_cons_cons, e3, List.getLast?_cons_cons]
      · intro x hx hr
        rcases List.mem_cons.1 hx with rfl | hx
        · simp
        · exact List.mem_cons_of_mem _ (e4 x hx hr)
      · intro d hd hnd
        rcases List.mem_cons.1 hd with rfl | hd
        · simp at hnd
        · exact (e6 d hd (fun h => hnd (List.mem_cons_of_mem _ h))).cons k0
    · obtain ⟨h, t, e1, e2, e3, e4, e5, e6⟩ := ih k0 c (fun x hx => hb x (by simp at hx ⊢; tauto))
        (by
          rw [List.pairwise_cons, List.pairwise_cons]
          exact ⟨fun x hx => q1 x (by simp at hx ⊢; tauto), q3, q4⟩)
      rw [not_or] at hcond
      have hpc := q2 c (by simp)
      have hph : values.getD p 0 < values.getD h 0 ∧ values.getD h 0 - values.getD k0 0 ≤ s := by
        rcases e5 with rfl | ⟨g1, g2⟩
        · omega
        · omega
      refine ⟨h, t, ?_, e2.cons p, ?_, ?_, Or.inr hph, ?_⟩
      · rw [if_neg (by tauto), e1]
      · rw [e3, List.getLast?_cons_cons]
      · intro x hx hr
        rcases List.mem_cons.1 hx with rfl | hx
        · exact absurd hr hcond.2
        · exact e4 x hx hr
      · intro d hd hnd
        rcases List.mem_cons.1 hd with rfl | hd
        · exact ⟨[], k0, h, t, rfl, q1 d (by simp), hph.1, hph.2⟩
        · exact e6 d hd hnd

/-- computeSampling over indices sorted by value -/
theorem computeSampling_spec (s : Nat) (idxs values req : List Nat) (hb : ∀ x ∈ idxs, x < values.length)
    (hp : idxs.Pairwise (fun a b => values.getD a 0 < values.getD b 0)) :
    ∃ K, computeSampling s idxs values req = some K ∧ List.Sublist K idxs ∧ K.head? = idxs.head? ∧
      K.getLast? = idxs.getLast? ∧ (∀ x ∈ idxs, x ∈ req → x ∈ K) ∧
      (∀ d ∈ idxs, d ∉ K → Bracketed (fun i => values.getD i 0) s K d) := by
  have hval : ∀ x ∈ idxs, values[x]? = some (values.getD x 0) := by
    intro x hx
    rw [List.getD_eq_getElem?_getD, List.getElem?_eq_getElem (hb x hx)]; rfl
  match idxs, hb, hp, hval with
  | [], _, _, _ => exact ⟨[], rfl, List.Sublist.refl _, rfl, rfl, by simp, by simp⟩
  | [f], _, _, hval =>
    refine ⟨[f], ?_, List.Sublist.refl _, rfl, rfl, fun x hx _ => hx, fun d hd hnd => absurd hd hnd⟩
    rw [computeSampling, hval f (by simp)]; rfl
  | f :: p :: rest, hb, hp, hval =>
    obtain ⟨h, t, e1, e2, e3, e4, e5, e6⟩ := samplingLoop_spec s values req rest f p (fun x hx => hb x (by simp at hx ⊢; tauto)) hp
    refine ⟨f :: h :: t, ?_, e2.cons_cons f, rfl, ?_, ?_, ?_⟩
    · simp only [computeSampling, hval f (by simp), hval p (by simp), e1, Option.bind_eq_bind, Option.bind_some]; rfl
    · rw [List.getLast?_cons_cons, e3, List.getLast?_cons_cons]
    · intro x hx hr
      rcases List.mem_cons.1 hx with rfl | hx
      · simp
      · exact List.mem_cons_of_mem _ (e4 x hx hr)
    · intro d hd hnd
      rcases List.mem_cons.1 hd with rfl | hd
      · simp at hnd
      · exact e6 d hd (fun h => hnd (List.mem_cons_of_mem _ h))

end Sri
