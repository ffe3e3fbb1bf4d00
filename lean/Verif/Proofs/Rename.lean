import Verif.Model.AllIndexes
import Verif.Spec
import Mathlib.Data.List.Basic
import Mathlib.Data.List.Nodup
import Mathlib.Data.List.Sort
import Mathlib.Tactic.ByContra
/-! # An index depends on the symbols of the text only through their order -/
namespace Sri
set_option autoImplicit false
namespace Rename

variable {φ : Nat → Nat} {T sa : List Nat}

theorem inj {l : List Nat} (h : ∀ a ∈ l, ∀ b ∈ l, a < b → φ a < φ b) {a b : Nat} (ha : a ∈ l) (hb : b ∈ l) (he : φ a = φ b) : a = b := by
  rcases Nat.lt_trichotomy a b with hc | hc | hc
  · have := h a ha b hb hc; omega
  · exact hc
  · have := h b hb a ha hc; omega

theorem map_lt {l m : List Nat} (h : ∀ a ∈ l, ∀ b ∈ m, a < b → φ a < φ b) (hi : ∀ a ∈ l, ∀ b ∈ m, a = b → φ a = φ b) (hlt : l < m) : l.map φ < m.map φ := by
  induction l generalizing m with
  | nil =>
    cases m with
    | nil => exact absurd hlt (List.not_lt_nil _)
    | cons b m => exact List.nil_lt_cons _ _
  | cons a l ih =>
    cases m with
    | nil => exact absurd hlt (List.not_lt_nil _)
    | cons b m =>
      rw [List.map_cons, List.map_cons]
      rcases List.cons_lt_cons_iff.1 hlt with h1 | ⟨h1, h2⟩
      · exact List.cons_lt_cons_iff.2 (Or.inl (h a (by simp) b (by simp) h1))
      · exact List.cons_lt_cons_iff.2 (Or.inr ⟨by rw [h1], ih (fun x hx y hy => h x (by simp [hx]) y (by simp [hy]))
          (fun x hx y hy => hi x (by simp [hx]) y (by simp [hy])) h2⟩)

theorem isSA (h : ∀ a ∈ T, ∀ b ∈ T, a < b → φ a < φ b) (hsa : IsSA T sa) : IsSA (T.map φ) sa := by
  refine ⟨by rw [List.length_map]; exact hsa.1, hsa.2.imp (fun {p q} hlt => ?_)⟩
  rw [← List.map_drop, ← List.map_drop]
  exact map_lt (fun a ha b hb => h a (List.mem_of_mem_drop ha) b (List.mem_of_mem_drop hb)) (fun a _ b _ he => by rw [he]) hlt

theorem constructBWT_rename (hn : T ≠ []) : constructBWT (T.map φ) sa = (constructBWT T sa).map φ := by
  unfold constructBWT
  rw [List.map_map, List.length_map]
  refine List.map_congr_left (fun p _ => ?_)
  have hl : (p + T.length - 1) % T.length < T.length := Nat.mod_lt _ (List.length_pos_iff.2 hn)
  simp only [Function.comp, List.getD_eq_getElem?_getD, List.getElem?_map, List.getElem?_eq_getElem hl, Option.map_some, Option.getD_some]

theorem mem_constructBWT (hn : T ≠ []) {x : Nat} (hx : x ∈ constructBWT T sa) : x ∈ T := by
  unfold constructBWT at hx
  obtain ⟨p, _, rfl⟩ := List.mem_map.1 hx
  have hl : (p + T.length - 1) % T.length < T.length := Nat.mod_lt _ (List.length_pos_iff.2 hn)
  rw [List.getD_eq_getElem?_getD, List.getElem?_eq_getElem hl]
  exact List.getElem_mem hl

theorem runsLoop {n : Nat} {l : List (Nat × Nat)} : ∀ {i s p : Nat}, (∀ a ∈ s :: l.map (·.1), ∀ b ∈ s :: l.map (·.1), φ a = φ b → a = b) →
    bwtRunsLoop n i (φ s) p (l.map (fun q => (φ q.1, q.2))) = bwtRunsLoop n i s p l := by
  induction l with
  | nil => intros; rfl
  | cons q l ih =>
    intro i s p h
    obtain ⟨c, x⟩ := q
    rw [List.map_cons]
    unfold bwtRunsLoop
    by_cases hc : c = s
    · subst hc
      simp only [ne_eq, not_true_eq_false, if_false]
      exact ih (fun a ha b hb => h a (by simp at ha ⊢; tauto) b (by simp at hb ⊢; tauto))
    · have hne : φ c ≠ φ s := fun he => hc (h c (by simp) s (by simp) he)
      simp only [ne_eq, hc, hne, not_false_eq_true, if_true]
      rw [ih (fun a ha b hb => h a (by simp at ha ⊢; tauto) b (by simp at hb ⊢; tauto))]

theorem runs_rename {xs : List Nat} (h : ∀ a ∈ xs, ∀ b ∈ xs, φ a = φ b → a = b) : constructBWTRuns (xs.map φ) sa = constructBWTRuns xs sa := by
  unfold constructBWTRuns
  rw [List.length_map]
  have : (xs.map φ).zip (sa.map (bwtTextPos xs.length)) = (xs.zip (sa.map (bwtTextPos xs.length))).map (fun q => (φ q.1, q.2)) := by
    rw [List.zip_map_left]; rfl
  rw [this]
  cases hz : xs.zip (sa.map (bwtTextPos xs.length)) with
  | nil => rfl
  | cons q l =>
    have hm : ∀ a ∈ q.1 :: l.map (·.1), a ∈ xs := by
      intro a ha
      have : a ∈ (xs.zip (sa.map (bwtTextPos xs.length))).map (·.1) := by rw [hz]; exact ha
      obtain ⟨w, hw, rfl⟩ := List.mem_map.1 this
      exact (List.of_mem_zip hw).1
    rw [List.map_cons]
    simp only
    rw [runsLoop (fun a ha b hb => h a (hm a ha) b (hm b hb))]

/-- the alphabet with other characters -/
def alpha (φ : Nat → Nat) (A : Alphabet) : Alphabet := { A with chars := A.chars.map φ }

theorem chars_sorted (xs : List Nat) : (Alphabet.build xs).chars.Pairwise (· < ·) := List.pairwise_lt_range.filter _

theorem mem_chars {xs : List Nat} {c : Nat} : c ∈ (Alphabet.build xs).chars ↔ c ∈ xs := by
  unfold Alphabet.build
  simp only [List.mem_filter, List.mem_range, decide_eq_true_eq, and_iff_right_iff_imp]
  intro hc
  have : ∀ (l : List Nat) (m : Nat), m ≤ l.foldl max m ∧ ∀ c ∈ l, c ≤ l.foldl max m := by
    intro l
    induction l with
    | nil => simp
    | cons a l ih =>
      intro m
      rw [List.foldl_cons]
      obtain ⟨h1, h2⟩ := ih (max m a)
      refine ⟨by omega, fun c hc => ?_⟩
      rcases List.mem_cons.1 hc with rfl | hc
      · omega
      · exact h2 c hc
  have := (this xs 0).2 c hc
  omega

theorem chars_rename {xs : List Nat} (h : ∀ a ∈ xs, ∀ b ∈ xs, a < b → φ a < φ b) :
    (Alphabet.build (xs.map φ)).chars = (Alphabet.build xs).chars.map φ := by
  have h1 := chars_sorted (xs.map φ)
  have h2 : ((Alphabet.build xs).chars.map φ).Pairwise (· < ·) := by
    rw [List.pairwise_map]
    exact (chars_sorted xs).imp_of_mem (fun {a b} ha hb hab => h a (mem_chars.1 ha) b (mem_chars.1 hb) hab)
  have hp : (Alphabet.build (xs.map φ)).chars.Perm ((Alphabet.build xs).chars.map φ) := by
    refine (List.perm_ext_iff_of_nodup (h1.imp (fun h => by omega)) (h2.imp (fun h => by omega))).2 (fun c => ?_)
    rw [mem_chars, List.mem_map, List.mem_map]
    simp only [mem_chars]
  exact hp.eq_of_pairwise (fun a b _ _ h1 h2 => by omega) h1 h2

theorem idxOf_map_on {l : List Nat} {x : Nat} (h : ∀ a ∈ l, φ a = φ x → a = x) : (l.map φ).idxOf (φ x) = l.idxOf x := by
  induction l with
  | nil => rfl
  | cons a l ih =>
    rw [List.map_cons, List.idxOf_cons, List.idxOf_cons, ih (fun b hb => h b (by simp [hb]))]
    by_cases ha : a = x
    · simp [ha]
    · have : φ a ≠ φ x := fun he => ha (h a (by simp) he)
      rw [beq_eq_false_iff_ne.2 ha, beq_eq_false_iff_ne.2 this]

theorem comp_rename {A : Alphabet} {c : Nat} (hi : ∀ a ∈ A.chars, φ a = φ c → a = c) : (alpha φ A).char2comp (φ c) = A.char2comp c := by
  unfold Alphabet.char2comp alpha
  simp only
  have : φ c ∈ A.chars.map φ ↔ c ∈ A.chars := by
    rw [List.mem_map]
    exact ⟨fun ⟨a, ha, he⟩ => hi a ha he ▸ ha, fun hc => ⟨c, hc, rfl⟩⟩
  by_cases hc : c ∈ A.chars
  · rw [if_pos hc, if_pos (this.2 hc), idxOf_map_on hi]
  · rw [if_neg hc, if_neg (fun h => hc (this.1 h))]

theorem alphabet_rename {xs : List Nat} (h : ∀ a ∈ xs, ∀ b ∈ xs, a < b → φ a < φ b) :
    Alphabet.build (xs.map φ) = alpha φ (Alphabet.build xs) := by
  have hc := chars_rename h
  have hC : (Alphabet.build (xs.map φ)).C = (Alphabet.build xs).C := by
    have e : ∀ ys : List Nat, (Alphabet.build ys).C =
        (List.range ((Alphabet.build ys).chars.length + 1)).map (fun k => ys.countP (fun x => decide ((Alphabet.build ys).char2comp x < k))) := fun _ => rfl
    rw [e, e, hc, List.length_map]
    refine List.map_congr_left (fun k _ => ?_)
    rw [List.countP_map]
    refine List.countP_congr (fun x hx => ?_)
    have h1 : (Alphabet.build (xs.map φ)).char2comp (φ x) = (Alphabet.build xs).char2comp x := by
      rw [← comp_rename (φ := φ) (fun a ha he => inj h (mem_chars.1 ha) hx he)]
      unfold Alphabet.char2comp alpha
      rw [hc]
    simp only [Function.comp, h1]
  cases hA : Alphabet.build (xs.map φ)
  rw [hA] at hc hC
  unfold alpha
  simp only at hc hC
  rw [hc, hC]

/-- the base items with other characters -/
def base (φ : Nat → Nat) (b : BaseItems) : BaseItems := { b with alphabet := alpha φ b.alphabet }

theorem constructBase_rename (h : ∀ a ∈ T, ∀ b ∈ T, a < b → φ a < φ b) (hn : T ≠ []) :
    constructBase (T.map φ) sa = (constructBase T sa).map (base φ) := by
  have hx : ∀ a ∈ constructBWT T sa, ∀ b ∈ constructBWT T sa, a < b → φ a < φ b := fun a ha b hb =>
    h a (mem_constructBWT hn ha) b (mem_constructBWT hn hb)
  unfold constructBase
  simp only [constructBWT_rename hn, alphabet_rename hx, runs_rename (sa := sa) (fun a ha b hb => inj hx ha hb), List.length_map, List.map_map]
  have : (constructBWT T sa).map ((alpha φ (Alphabet.build (constructBWT T sa))).char2comp ∘ φ) =
      (constructBWT T sa).map (Alphabet.build (constructBWT T sa)).char2comp := by
    refine List.map_congr_left (fun c hc => comp_rename (fun a ha he => inj hx (mem_chars.1 ha) hc he))
  rw [this]
  cases constructBWTRuns (constructBWT T sa) sa with
  | none => rfl
  | some r =>
    simp only [Option.bind_eq_bind, Option.bind_some]
    cases RLEString.build ((constructBWT T sa).map (Alphabet.build (constructBWT T sa)).char2comp) 2 <;> rfl

theorem constructBase_alphabet {b : BaseItems} (hb : constructBase T sa = some b) : b.alphabet = Alphabet.build (constructBWT T sa) := by
  unfold constructBase at hb
  obtain ⟨_, _, hb⟩ := Option.bind_eq_some_iff.1 hb
  obtain ⟨_, _, hb⟩ := Option.bind_eq_some_iff.1 hb
  cases hb
  rfl

theorem sigma_rename (b : BaseItems) : (base φ b).alphabet.sigma = b.alphabet.sigma := List.length_map _

/-! ## queries -/

theorem countLoop_rename {ρ ν δ : Type} (F : Functors ρ ν δ) (g : Nat → Nat) {P : List Nat} (h : ∀ c ∈ P, g (φ c) = F.getSymbol c) :
    ∀ r, ({ F with getSymbol := g } : Functors ρ ν δ).countLoop (P.map φ) r = F.countLoop P r := by
  induction P with
  | nil => intro r; rfl
  | cons c P ih =>
    intro r
    rw [List.map_cons]
    unfold Functors.countLoop
    simp only [h c (by simp), ih (fun a ha => h a (by simp [ha]))]

theorem locateLoop_rename {ρ ν δ : Type} (F : Functors ρ ν δ) (g : Nat → Nat) {P : List Nat} (h : ∀ c ∈ P, g (φ c) = F.getSymbol c) :
    ∀ r d, ({ F with getSymbol := g } : Functors ρ ν δ).locateLoop (P.map φ) r d = F.locateLoop P r d := by
  induction P with
  | nil => intro r d; rfl
  | cons c P ih =>
    intro r d
    rw [List.map_cons]
    unfold Functors.locateLoop
    simp only [h c (by simp), ih (fun a ha => h a (by simp [ha])), List.length_map]

theorem count_rename {ρ ν δ : Type} (F : Functors ρ ν δ) (g : Nat → Nat) {P : List Nat} (h : ∀ c ∈ P, g (φ c) = F.getSymbol c) :
    ({ F with getSymbol := g } : Functors ρ ν δ).count (P.map φ) = F.count P := by
  unfold Functors.count
  rw [← List.map_reverse, countLoop_rename F g (fun c hc => h c (List.mem_reverse.1 hc))]

theorem locate_rename {ρ ν δ : Type} (F : Functors ρ ν δ) (g : Nat → Nat) {P : List Nat} (h : ∀ c ∈ P, g (φ c) = F.getSymbol c) :
    ({ F with getSymbol := g } : Functors ρ ν δ).locate (P.map φ) = F.locate P := by
  unfold Functors.locate
  rw [← List.map_reverse, locateLoop_rename F g (fun c hc => h c (List.mem_reverse.1 hc)), List.length_map]

end Rename
end Sri
