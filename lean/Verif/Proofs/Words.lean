import Verif.Model.Words
import Verif.Proofs.Sdsl
/-! # The queries in machine arithmetic follow the queries over the natural numbers -/
namespace Sri
set_option autoImplicit false

/-- whenever `x` has a result, `y` has the same, and it satisfies `P` -/
def Agrees {α : Type} (x y : Option α) (P : α → Prop) : Prop := ∀ r, x = some r → y = some r ∧ P r

section
variable {α β : Type}

theorem Agrees.bind {x y : Option α} {P : α → Prop} {f g : α → Option β} {Q : β → Prop} (h : Agrees x y P)
    (hf : ∀ r, P r → x = some r → Agrees (f r) (g r) Q) : Agrees (x.bind f) (y.bind g) Q := by
  intro b hb
  obtain ⟨a, ha, hb⟩ := Option.bind_eq_some_iff.1 hb
  obtain ⟨e, hP⟩ := h a ha
  rw [e, Option.bind_some]
  exact hf a hP ha b hb

theorem Agrees.pure {a : α} {P : α → Prop} (h : P a) : Agrees (some a) (some a) P := by
  intro r hr
  rw [Option.some_inj] at hr
  subst hr
  exact ⟨rfl, h⟩

theorem Agrees.refl {x : Option α} {P : α → Prop} (h : ∀ r, x = some r → P r) : Agrees x x P := fun r hr => ⟨hr, h r hr⟩

theorem Agrees.none {y : Option α} {P : α → Prop} : Agrees none y P := fun _ h => nomatch h

theorem Agrees.mono {x y : Option α} {P Q : α → Prop} (h : Agrees x y P) (hPQ : ∀ r, x = some r → P r → Q r) : Agrees x y Q :=
  fun r hr => ⟨(h r hr).1, hPQ r hr (h r hr).2⟩

theorem Agrees.csub {a b : Nat} {f : Nat → Option β} {y : Option β} {Q : β → Prop} (h : b ≤ a → Agrees (f (a - b)) y Q) :
    Agrees ((Sri.csub a b).bind f) y Q := by
  unfold Sri.csub
  by_cases hb : b ≤ a
  · rw [if_pos hb, Option.bind_some]; exact h hb
  · rw [if_neg hb]; exact Agrees.none

theorem Agrees.assertC {b : Bool} {f g : Unit → Option β} {Q : β → Prop} (h : b = true → Agrees (f ()) (g ()) Q) :
    Agrees ((Sri.assertC b).bind f) ((Sri.assertC b).bind g) Q := by
  refine Agrees.bind (P := fun _ => b = true) (Agrees.refl ?_) (fun _ hb _ => h hb)
  intro r hr
  unfold Sri.assertC at hr
  by_cases hb : b = true
  · exact hb
  · rw [if_neg hb] at hr; cases hr

theorem Agrees.cmod {a n : Nat} : Agrees (Sri.cmod a n) (Sri.cmod a n) (fun r => r < n) := by
  refine Agrees.refl ?_
  intro r hr
  unfold Sri.cmod at hr
  by_cases h0 : n = 0
  · rw [if_pos h0] at hr; cases hr
  · rw [if_neg h0, Option.some_inj] at hr
    subst hr
    exact Nat.mod_lt _ (by omega)

theorem Agrees.ite {c : Prop} [Decidable c] {x x' y y' : Option α} {P : α → Prop} (h1 : c → Agrees x y P) (h2 : ¬ c → Agrees x' y' P) :
    Agrees (if c then x else x') (if c then y else y') P := by
  by_cases h : c
  · rw [if_pos h, if_pos h]; exact h1 h
  · rw [if_neg h, if_neg h]; exact h2 h

end

theorem add64_eq {a b : Nat} (h : a + b < W64) : add64 a b = a + b := Nat.mod_eq_of_lt h

theorem wsub_eq {a b : Nat} (h : b ≤ a) (ha : a < W64) : wsub a b = a - b := by
  unfold wsub
  rw [show a + W64 - b = (a - b) + W64 by omega, Nat.add_mod_right]
  exact Nat.mod_eq_of_lt (by omega)

/-- `x - j` written as `x + (2^64 - 1) * j` -/
theorem add_negmul {x j : Nat} (h : j ≤ x) (hx : x < W64) : add64 x (mul64 (W64 - 1) j) = x - j := by
  unfold add64 mul64
  rw [Nat.add_mod_mod]
  have hW : 1 ≤ W64 := by unfold W64; omega
  have : x + (W64 - 1) * j = (x - j) + W64 * j := by
    have : (W64 - 1) * j + j = W64 * j := by
      rw [← Nat.succ_mul, Nat.succ_eq_add_one, Nat.sub_add_cancel hW]
    omega
  rw [this, Nat.add_mul_mod_self_left]
  exact Nat.mod_eq_of_lt (by omega)

/-! ## The functors of phi.h, toehold.h, tools.h, sequence_ops.h -/

/-- `n` leaves room for the sums of the queries -/
def Fits (n : Nat) : Prop := n < 2 ^ 60

theorem Fits.four {n : Nat} (h : Fits n) : 4 * n + 4 < 2 ^ 63 := by unfold Fits at h; omega

theorem W64_eq : W64 = 2 ^ 64 := rfl

theorem bvRank_le {bv : List Bool} {i r : Nat} (h : bvRank bv i = some r) : r ≤ i ∧ i ≤ bv.length := by
  unfold bvRank at h
  by_cases hi : i ≤ bv.length
  · rw [if_pos hi, Option.some_inj] at h
    subst h
    exact ⟨Nat.le_trans (List.count_le_length) (by rw [List.length_take]; omega), hi⟩
  · rw [if_neg hi] at h; cases h

theorem circularPredecessor_agrees {marks : List Bool} {n i : Nat} (hm : marks.length ≤ n) (hn : Fits n) :
    Agrees (circularPredecessor (bvRank marks) (bvSelect marks) n i) (circularPredecessor64 (bvRank marks) (bvSelect marks) n i) (fun _ => True) := by
  have h4 := hn.four
  have hW := W64_eq
  unfold circularPredecessor circularPredecessor64
  simp only [Option.bind_eq_bind, Option.pure_def]
  refine Agrees.bind (P := fun ones => ones ≤ n) (Agrees.refl fun r hr => (bvRank_le hr).1) fun ones ho _ => ?_
  refine Agrees.bind (P := fun r => r ≤ n) (Agrees.refl fun r hr => by have := bvRank_le hr; omega) fun r hr _ => ?_
  refine Agrees.csub fun hle => ?_
  rw [add64_eq (by omega), wsub_eq hle (by omega)]
  refine Agrees.bind Agrees.cmod fun order hord _ => ?_
  rw [add64_eq (by omega)]
  exact Agrees.refl fun _ _ => trivial

theorem circularSoftSuccessor_agrees {marks : List Bool} {n i : Nat} (hm : marks.length ≤ n) (hn : Fits n) :
    Agrees (circularSoftSuccessor (bvRank marks) (bvSelect marks) n i) (circularSoftSuccessor64 (bvRank marks) (bvSelect marks) n i)
      (fun r => r.2 < n) := by
  have h4 := hn.four
  have hW := W64_eq
  unfold circularSoftSuccessor circularSoftSuccessor64
  simp only [Option.bind_eq_bind, Option.pure_def]
  refine Agrees.bind (P := fun ones => ones ≤ n) (Agrees.refl fun r hr => (bvRank_le hr).1) fun ones ho _ => ?_
  refine Agrees.bind (P := fun r => r ≤ n) (Agrees.refl fun r hr => by have := bvRank_le hr; omega) fun r hr _ => ?_
  refine Agrees.bind Agrees.cmod fun order hord _ => ?_
  rw [add64_eq (by omega)]
  refine Agrees.bind (P := fun v => v < n) (Agrees.refl fun v hv => ?_) fun v hv _ => Agrees.pure hv
  have := (bvSelect_eq_some.1 hv).1
  omega

theorem getSampleForPhi_lt {getIdx : Nat → Option (Nat × Bool)} {samples : List Nat} {valid : Nat → Nat → Bool → Option Bool} {pos delta n : Nat}
    (hs : ∀ x ∈ samples, x < n) {r : Nat × Bool} (h : getSampleForPhi getIdx (fun k => samples[k]?) valid pos delta = some r) : r.1 < n := by
  unfold getSampleForPhi at h
  simp only [Option.bind_eq_bind, Option.bind_eq_some_iff, Option.pure_def, Option.some.injEq] at h
  obtain ⟨_, _, s, hs', _, _, rfl⟩ := h
  exact hs _ (List.mem_of_getElem? hs')

theorem phiBackward_agrees {pred pred' : Nat → Option (Nat × Nat)} {gs : Nat → Nat → Option (Nat × Bool)} {n v : Nat} (hn : Fits n)
    (hp : Agrees (pred v) (pred' v) (fun _ => True)) (hg : ∀ pos d r, gs pos d = some r → r.1 < n) (hv : v < n) :
    Agrees (phiBackward pred gs n v) (phiBackward64 pred' gs n v) (fun r => r.1 < n) := by
  have h4 := hn.four
  have hW := W64_eq
  unfold phiBackward phiBackward64
  simp only [Option.bind_eq_bind, Option.pure_def]
  refine Agrees.csub fun hle => ?_
  rw [wsub_eq hle (by omega)]
  refine Agrees.assertC fun _ => ?_
  refine Agrees.bind hp fun q _ _ => ?_
  have hd : (if q.2 < v then wsub v q.2 else add64 v 1) = (if q.2 < v then v - q.2 else v + 1) := by
    by_cases h : q.2 < v
    · rw [if_pos h, if_pos h, wsub_eq (by omega) (by omega)]
    · rw [if_neg h, if_neg h, add64_eq (by omega)]
  rw [hd]
  have hle : (if q.2 < v then v - q.2 else v + 1) ≤ n := by split <;> omega
  refine Agrees.bind (P := fun r => r.1 < n) (Agrees.refl fun r hr => hg _ _ _ hr) fun r hr _ => ?_
  rw [add64_eq (by omega)]
  exact Agrees.bind Agrees.cmod fun x hx _ => Agrees.pure hx

theorem phiForward_agrees {succ succ' : Nat → Option (Nat × Nat)} {gs : Nat → Nat → Option (Nat × Bool)} {n v : Nat} (hn : Fits n)
    (hp : Agrees (succ v) (succ' v) (fun r => r.2 < n)) (hg : ∀ pos d r, gs pos d = some r → r.1 < n) :
    Agrees (phiForward succ gs n v) (phiForward64 succ' gs n v) (fun r => r.1 < n) := by
  have h4 := hn.four
  have hW := W64_eq
  unfold phiForward phiForward64
  simp only [Option.bind_eq_bind, Option.pure_def]
  refine Agrees.bind hp fun q hq _ => ?_
  refine Agrees.csub fun hle => ?_
  rw [wsub_eq hle (by omega)]
  refine Agrees.bind (P := fun r => r.1 < n) (Agrees.refl fun r hr => hg _ _ _ hr) fun r hr _ => ?_
  refine Agrees.csub fun hle' => ?_
  rw [add64_eq (by omega), wsub_eq hle' (by omega)]
  exact Agrees.bind Agrees.cmod fun x hx _ => Agrees.pure hx

theorem phiLoop_agrees {phi phi' : Nat → Option (Nat × Bool)} {n : Nat} (h : ∀ v, v < n → Agrees (phi v) (phi' v) (fun r => r.1 < n)) :
    ∀ (len k : Nat), k < n → Agrees (phiLoop phi len k) (phiLoop phi' len k) (fun _ => True) := by
  intro len
  induction len with
  | zero => intro k _; exact Agrees.pure trivial
  | succ len ih =>
    intro k hk
    simp only [phiLoop, Option.bind_eq_bind, Option.pure_def]
    refine Agrees.bind (h k hk) fun r hr _ => ?_
    exact Agrees.bind (ih r.1 hr) fun _ _ _ => Agrees.pure trivial

theorem computeToehold_agrees {β : Type} {g g' : β → Option Nat} {n : Nat} {d : StepData β} (hn : Fits n)
    (h : Agrees (g d.run) (g' d.run) (fun v => v ≤ n)) : Agrees (computeToehold g n d) (computeToehold64 g' n d) (fun r => r < n) := by
  have h4 := hn.four
  have hW := W64_eq
  unfold computeToehold computeToehold64
  simp only [Option.bind_eq_bind]
  refine Agrees.bind h fun v hv _ => ?_
  refine Agrees.csub fun h1 => Agrees.csub fun h2 => ?_
  rw [add64_eq (by omega), wsub_eq h1 (by omega), wsub_eq h2 (by omega)]
  exact Agrees.cmod

theorem computeAllValues_agrees {ρ δ : Type} {p p' : ρ → Nat → Option (List Nat)} {t t' : δ → Option Nat} {u u' : ρ → Option ρ} {r : ρ} {d : δ}
    {n : Nat} {V : ρ → Prop} (ht : Agrees (t d) (t' d) (fun v => v < n)) (hu : Agrees (u r) (u' r) V)
    (hp : ∀ r k, V r → k < n → Agrees (p r k) (p' r k) (fun _ => True)) :
    Agrees (computeAllValues p t u r d) (computeAllValues p' t' u' r d) (fun _ => True) := by
  unfold computeAllValues
  simp only [Option.bind_eq_bind, Option.pure_def]
  refine Agrees.bind ht fun k hk _ => ?_
  refine Agrees.bind hu fun r hr _ => ?_
  exact Agrees.bind (hp r k hr hk) fun _ _ _ => Agrees.pure trivial

/-- the search for a sample: navigation agrees on the data in `W` -/
theorem findSample_agrees {β : Type} {g g' : β → Option (Option Nat)} {f f' : β → Option β} {n : Nat} {W : β → Prop}
    (hg : ∀ d, W d → Agrees (g d) (g' d) (fun x => ∀ v, x = some v → v < n)) (hf : ∀ d, W d → Agrees (f d) (f' d) W) :
    ∀ (fuel : Nat) (d : β) (j : Nat), W d → j + fuel < W64 → ∀ x k, findSample g f fuel d = some (x, k) →
      findSample64 g' f' fuel d j = some (x, j + k) ∧ x < n ∧ k < fuel := by
  intro fuel
  induction fuel with
  | zero => intro d j _ _ x k h; cases h
  | succ fuel ih =>
    intro d j hd hj x k h
    rw [findSample] at h
    simp only [Option.bind_eq_bind, Option.bind_eq_some_iff] at h
    obtain ⟨s, hs, h⟩ := h
    obtain ⟨e1, e2⟩ := hg d hd s hs
    rw [findSample64]
    simp only [Option.bind_eq_bind, e1, Option.bind_some]
    cases s with
    | some y =>
      simp only [Option.pure_def, Option.some.injEq, Prod.mk.injEq] at h ⊢
      obtain ⟨rfl, rfl⟩ := h
      exact ⟨⟨rfl, rfl⟩, e2 _ rfl, by omega⟩
    | none =>
      simp only [Option.bind_eq_some_iff, Option.pure_def, Option.some.injEq, Prod.mk.injEq] at h
      obtain ⟨d', hd', ⟨y, k'⟩, h, rfl, rfl⟩ := h
      obtain ⟨f1, f2⟩ := hf d hd d' hd'
      simp only [f1, Option.bind_some]
      rw [add64_eq (by omega)]
      obtain ⟨i1, i2, i3⟩ := ih d' (j + 1) f2 (by omega) _ _ h
      refine ⟨?_, i2, by omega⟩
      rw [i1]; simp only [Option.some.injEq, Prod.mk.injEq, true_and]; omega

theorem saValueBackward_agrees {β : Type} {g g' : β → Option (Option Nat)} {f f' : β → Option β} {n fuel : Nat} {W : β → Prop} (hn : Fits n)
    (hfuel : fuel ≤ n + 2) (hg : ∀ d, W d → Agrees (g d) (g' d) (fun x => ∀ v, x = some v → v < n)) (hf : ∀ d, W d → Agrees (f d) (f' d) W)
    {d : β} (hd : W d) : Agrees (saValueBackward g f fuel n d) (saValue64 true g' f' fuel n d) (fun v => v ≤ n) := by
  have h4 := hn.four
  have hW := W64_eq
  intro r hr
  unfold saValueBackward at hr
  simp only [Option.bind_eq_bind, Option.bind_eq_some_iff] at hr
  obtain ⟨⟨x, j⟩, h1, h2⟩ := hr
  obtain ⟨e1, e2, e3⟩ := findSample_agrees hg hf fuel d 0 hd (by omega) _ _ h1
  unfold saValue64
  rw [e1]
  change cmod (add64 (add64 (add64 x 1) n) (mul64 _ (0 + j))) n = _ ∧ _
  have : add64 (add64 (add64 x 1) n) (mul64 (if true = true then 1 else W64 - 1) (0 + j)) = x + 1 + n + j := by
    rw [if_pos rfl, mul64, Nat.zero_add, Nat.one_mul, Nat.mod_eq_of_lt (show j < W64 by omega), add64_eq (a := x) (by omega), add64_eq (a := x + 1) (by omega), add64_eq (by omega)]
  exact ⟨(congrArg (fun z => cmod z n) this).trans h2, Nat.le_of_lt (Agrees.cmod r h2).2⟩

theorem saValueForward_agrees {β : Type} {g g' : β → Option (Option Nat)} {f f' : β → Option β} {n fuel : Nat} {W : β → Prop} (hn : Fits n)
    (hfuel : fuel ≤ n + 2) (hg : ∀ d, W d → Agrees (g d) (g' d) (fun x => ∀ v, x = some v → v < n)) (hf : ∀ d, W d → Agrees (f d) (f' d) W)
    {d : β} (hd : W d) : Agrees (saValueForward g f fuel n d) (saValue64 false g' f' fuel n d) (fun v => v ≤ n) := by
  have h4 := hn.four
  have hW := W64_eq
  intro r hr
  unfold saValueForward at hr
  simp only [Option.bind_eq_bind, Option.bind_eq_some_iff] at hr
  obtain ⟨⟨x, j⟩, h1, y, hy, h2⟩ := hr
  obtain ⟨e1, e2, e3⟩ := findSample_agrees hg hf fuel d 0 hd (by omega) _ _ h1
  have hj : j ≤ x + 1 + n ∧ y = x + 1 + n - j := by
    unfold csub at hy
    by_cases hle : j ≤ x + 1 + n
    · rw [if_pos hle, Option.some_inj] at hy; exact ⟨hle, hy.symm⟩
    · rw [if_neg hle] at hy; cases hy
  unfold saValue64
  rw [e1]
  change cmod (add64 (add64 (add64 x 1) n) (mul64 _ (0 + j))) n = _ ∧ _
  have : add64 (add64 (add64 x 1) n) (mul64 (if false = true then 1 else W64 - 1) (0 + j)) = y := by
    rw [if_neg (by decide), Nat.zero_add, add64_eq (a := x) (by omega), add64_eq (a := x + 1) (by omega), add_negmul hj.1 (by omega), hj.2]
  exact ⟨(congrArg (fun z => cmod z n) this).trans h2, Nat.le_of_lt (Agrees.cmod r h2).2⟩

end Sri
