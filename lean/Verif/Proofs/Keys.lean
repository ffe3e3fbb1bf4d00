import Verif.Proofs.Objects
/-! # Keys of different rates -/
namespace Sri
set_option autoImplicit false

theorem split_first {c : Char} : ∀ {a b x y : List Char}, c ∉ a → c ∉ b → a ++ c :: x = b ++ c :: y → a = b ∧ x = y
  | [], [], x, y, _, _, h => ⟨rfl, by simpa using h⟩
  | [], d :: b, x, y, _, hb, h => by
    simp only [List.nil_append, List.cons_append, List.cons.injEq] at h
    exact absurd (by rw [h.1]; simp) hb
  | d :: a, [], x, y, ha, _, h => by
    simp only [List.nil_append, List.cons_append, List.cons.injEq] at h
    exact absurd (by rw [h.1]; simp) ha
  | d :: a, e :: b, x, y, ha, hb, h => by
    simp only [List.cons_append, List.cons.injEq] at h
    obtain ⟨h1, h2⟩ := split_first (fun hc => ha (by simp [hc])) (fun hc => hb (by simp [hc])) h.2
    exact ⟨by rw [h.1, h1], h2⟩

theorem toDigits_inj {m n : Nat} (h : Nat.toDigits 10 m = Nat.toDigits 10 n) : m = n := by
  have := congrArg (fun l => Nat.ofDigitChars 10 l 0) h
  simpa [Nat.ofDigitChars_ten_toDigits] using this

/-- the rate and the name can be read off a key -/
theorem ratePrefix_inj {s₁ s₂ : Nat} {k₁ k₂ : Key} (h : ratePrefix s₁ ++ k₁ = ratePrefix s₂ ++ k₂) : s₁ = s₂ ∧ k₁ = k₂ := by
  unfold ratePrefix at h
  rw [List.append_assoc, List.append_assoc] at h
  obtain ⟨h1, h2⟩ := split_first (c := '_') Nat.underscore_not_in_toDigits Nat.underscore_not_in_toDigits h
  exact ⟨toDigits_inj h1, h2⟩

/-- the first character of a key of a rate is a digit -/
theorem ratePrefix_head (s : Nat) (k : Key) : ∃ c l, ratePrefix s ++ k = c :: l ∧ c.isDigit = true := by
  unfold ratePrefix
  cases h : Nat.toDigits 10 s with
  | nil => exact absurd h Nat.toDigits_ne_nil
  | cons c l =>
    refine ⟨c, l ++ ['_'] ++ k, rfl, ?_⟩
    exact Nat.isDigit_of_mem_toDigits (b := 10) (n := s) (by omega) (by omega) (by rw [h]; simp)

/-- no rate-free key of an item starts with a digit -/
theorem rateFree_head (t : IndexType) (b : BvKind) : ∀ w ∈ writes t b, (keyName t w.slot).1 = false →
    ((keyName t w.slot).2.head?.map Char.isDigit) = some false := by
  cases t <;> cases b <;> decide +kernel

theorem rate_ne_free (t₁ t₂ : IndexType) (b₂ : BvKind) (s : Nat) (pre : Key) (w₁ w₂ : Write) (h₂ : w₂ ∈ writes t₂ b₂)
    (hp₁ : (keyName t₁ w₁.slot).1 = true) (hp₂ : (keyName t₂ w₂.slot).1 = false) :
    w₁.key (keyOf t₁ (ratePrefix s)) ≠ w₂.key (keyOf t₂ pre) := by
  intro e
  have hf := rateFree_head t₂ b₂ w₂ h₂ hp₂
  unfold Write.key keyOf at e
  dsimp only at e
  rw [if_pos hp₁, if_neg (by simp [hp₂]), List.append_assoc] at e
  obtain ⟨c, l, hc, hd⟩ := ratePrefix_head s ((keyName t₁ w₁.slot).2 ++ w₁.part.suffix)
  rw [hc] at e
  cases hn : (keyName t₂ w₂.slot).2 with
  | nil => rw [hn] at hf; simp at hf
  | cons d m =>
    rw [hn] at e hf
    simp only [List.cons_append, List.cons.injEq] at e
    simp only [List.head?_cons, Option.map_some, Option.some.injEq] at hf
    rw [← e.1, hd] at hf
    cases hf

end Sri
