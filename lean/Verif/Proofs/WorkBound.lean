import Verif.Proofs.Work
import Verif.Proofs.BackRange
import Verif.Proofs.ForwRange
/-! # Bounds on the calls of the functors, for one range of the suffix array -/
namespace Sri
set_option autoImplicit false

namespace Cost
variable {α β : Type}

/-- whatever the computation returns, and the calls it made, are as `P` says -/
def Le (x : Cost α) (P : α → Nat → Prop) : Prop := ∀ a c, x = some (a, c) → P a c

theorem Le.mono {x : Cost α} {P Q : α → Nat → Prop} (h : x.Le P) (hpq : ∀ a c, P a c → Q a c) : x.Le Q :=
  fun a c e => hpq a c (h a c e)

theorem eq_of_some {a b : α} {c d : Nat} (h : (some (a, c) : Option (α × Nat)) = some (b, d)) : a = b ∧ c = d := by
  cases h; exact ⟨rfl, rfl⟩

theorem le_ret {a : α} {P : α → Nat → Prop} (h : P a 0) : (ret a).Le P := by
  intro b c e
  obtain ⟨rfl, rfl⟩ := eq_of_some e
  exact h

theorem le_pure {a : α} {P : α → Nat → Prop} (h : P a 0) : (pure a : Cost α).Le P := le_ret h

theorem le_none {P : α → Nat → Prop} : (free none : Cost α).Le P := by
  intro b c e; cases e

theorem le_free {o : Option α} {P : α → Nat → Prop} (h : ∀ a, o = some a → P a 0) : (free o).Le P := by
  intro b c e
  cases o with
  | none => cases e
  | some a =>
    obtain ⟨rfl, rfl⟩ := eq_of_some e
    exact h _ rfl

theorem le_call {o : Option α} {P : α → Nat → Prop} (h : ∀ a, o = some a → P a 1) : (call o).Le P := by
  intro b c e
  cases o with
  | none => cases e
  | some a =>
    obtain ⟨rfl, rfl⟩ := eq_of_some e
    exact h _ rfl

theorem le_split {o : Option (List α)} {P : List α → Nat → Prop} (h : ∀ l, o = some l → P l (1 + l.length)) : (split o).Le P := by
  intro b c e
  cases o with
  | none => cases e
  | some a =>
    obtain ⟨rfl, rfl⟩ := eq_of_some e
    exact h _ rfl

theorem le_bind {x : Cost α} {f : α → Cost β} {P : α → Nat → Prop} {Q : β → Nat → Prop} (hx : x.Le P)
    (hf : ∀ a c, P a c → (f a).Le (fun b d => Q b (c + d))) : (x >>= f).Le Q := by
  intro b e he
  change andThen x f = _ at he
  cases x with
  | none => cases he
  | some p =>
    obtain ⟨a, c⟩ := p
    simp only [andThen] at he
    cases hfa : f a with
    | none => rw [hfa] at he; cases he
    | some q =>
      obtain ⟨b', d⟩ := q
      rw [hfa] at he
      obtain ⟨rfl, rfl⟩ := eq_of_some he
      exact hf a c (hx a c rfl) _ _ hfa

theorem le_ite {p : Prop} [Decidable p] {x y : Cost α} {P : α → Nat → Prop} (h : p → x.Le P) (h' : ¬ p → y.Le P) :
    (if p then x else y).Le P := by
  split
  · exact h ‹_›
  · exact h' ‹_›

end Cost

open Cost

/-- what updating a run does to its size: one position less -/
structure Shrinks {R : Type} (F : RangePhi R) (m : R → Nat) (Inv : R → Prop) : Prop where
  empty : ∀ r, F.isRunEmpty r = true ↔ m r = 0
  update : ∀ r r', Inv r → 0 < m r → F.updateRun r = some r' → Inv r' ∧ m r' + 1 = m r

namespace Shrinks
variable {R : Type} {F : RangePhi R} {m : R → Nat} {Inv : R → Prop}

/-- one phi per position -/
theorem phiWhile (h : Shrinks F m Inv) (fuel : Nat) : ∀ run prev, Inv run → 0 < m run →
    (F.phiWhileW fuel run prev).Le (fun _ c => c ≤ m run) := by
  induction fuel with
  | zero => intro run prev _ _; exact le_none
  | succ fuel ih =>
    intro run prev hi hm
    rw [RangePhi.phiWhileW]
    refine le_bind (P := fun _ c => c = 1) (le_call fun _ _ => rfl) ?_
    rintro ⟨v, ok⟩ _ rfl
    refine le_bind (P := fun r c => c = 0 ∧ Inv r ∧ m r + 1 = m run) (le_free fun r e => ⟨rfl, h.update _ _ hi hm e⟩) ?_
    rintro r _ ⟨rfl, h1, h2⟩
    refine le_ite (fun _ => le_pure (by omega)) (fun he => ?_)
    rw [h.empty] at he
    refine le_bind (ih r v h1 (by omega)) ?_
    rintro ⟨l, e⟩ c hc
    exact le_pure (by omega)

theorem phiWhileV (h : Shrinks F m Inv) (fuel : Nat) : ∀ run prev, Inv run → 0 < m run →
    (F.phiWhileVW fuel run prev).Le (fun _ c => c ≤ m run) := by
  induction fuel with
  | zero => intro run prev _ _; exact le_none
  | succ fuel ih =>
    intro run prev hi hm
    rw [RangePhi.phiWhileVW]
    refine le_bind (P := fun r c => c = 0 ∧ Inv r ∧ m r + 1 = m run) (le_free fun r e => ⟨rfl, h.update _ _ hi hm e⟩) ?_
    rintro r _ ⟨rfl, h1, h2⟩
    refine le_bind (P := fun _ c => c = 1) (le_call fun _ _ => rfl) ?_
    rintro ⟨v, ok⟩ _ rfl
    refine le_ite (fun _ => le_pure (by omega)) (fun he => ?_)
    rw [h.empty] at he
    refine le_bind (ih r v h1 (by omega)) ?_
    rintro ⟨l, e⟩ c hc
    exact le_pure (by omega)

/-- reporting the values that are known to be right: one phi per position reported -/
theorem reportValid (h : Shrinks F m Inv) (fuel : Nat) : ∀ run value valid, Inv run →
    (F.reportValidW fuel run value valid).Le (fun a c => Inv a.2.1 ∧ c + m a.2.1 = m run ∧ (m a.2.1 = 0 ∨ a.2.2.2 = false) ∧
      (valid = true → 0 < m run → m a.2.1 < m run)) := by
  induction fuel with
  | zero =>
    intro run value valid hi
    rw [RangePhi.reportValidW]
    refine le_ite (fun he => le_ret ?_) (fun _ => le_none)
    simp only [Bool.or_eq_true, Bool.not_eq_true', h.empty] at he
    refine ⟨hi, by simp, he, ?_⟩
    rintro rfl hm
    simp at he; omega
  | succ fuel ih =>
    intro run value valid hi
    rw [RangePhi.reportValidW]
    refine le_ite (fun he => le_ret ?_) (fun he => ?_)
    · simp only [Bool.or_eq_true, Bool.not_eq_true', h.empty] at he
      refine ⟨hi, by simp, he, ?_⟩
      rintro rfl hm
      simp at he; omega
    · simp only [Bool.or_eq_true, Bool.not_eq_true', h.empty, not_or] at he
      have hm : 0 < m run := by omega
      refine le_bind (P := fun r c => c = 0 ∧ Inv r ∧ m r + 1 = m run) (le_free fun r e => ⟨rfl, h.update _ _ hi hm e⟩) ?_
      rintro r _ ⟨rfl, h1, h2⟩
      refine le_bind (P := fun _ c => c = 1) (le_call fun _ _ => rfl) ?_
      rintro ⟨v, ok⟩ _ rfl
      refine le_bind (ih r v ok h1) ?_
      rintro ⟨l, r', e⟩ c ⟨g1, g2, g3, -⟩
      dsimp only at g1 g2 g3
      exact le_pure ⟨g1, by dsimp only; omega, g3, fun _ _ => by dsimp only; omega⟩

/-- a run with its samples: two calls per position it reports, and one more if it starts with no value -/
theorem runValid (h : Shrinks F m Inv) (tv : Nat → Option Nat) (fuel : Nat) : ∀ run value valid, Inv run →
    (F.runValidW tv fuel run value valid).Le (fun a c => Inv a.2.1 ∧ m a.2.1 ≤ m run ∧
      c + 2 * m a.2.1 ≤ 2 * m run + (if valid then 0 else 1)) := by
  induction fuel with
  | zero => intro run value valid _; exact le_none
  | succ fuel ih =>
    intro run value valid hi
    rw [RangePhi.runValidW]
    refine le_bind (h.reportValid _ run value valid hi) ?_
    rintro ⟨l, r, v, ok⟩ c ⟨g1, g2, g3, g4⟩
    dsimp only at g1 g2 g3 g4 ⊢
    refine le_ite (fun he => le_pure ?_) (fun he => ?_)
    · rw [h.empty] at he
      exact ⟨g1, by dsimp only; omega, by dsimp only; split <;> omega⟩
    · rw [h.empty] at he
      have hok : ok = false := g3.resolve_left he
      subst hok
      refine le_bind (P := fun _ c => c = 1) (le_call fun _ _ => rfl) ?_
      rintro sample _ rfl
      cases sample with
      | none =>
        dsimp only
        rw [if_neg (by simp)]
        refine le_pure ⟨g1, by dsimp only; omega, ?_⟩
        dsimp only
        cases valid with
        | false => simp; omega
        | true => have := g4 rfl (by omega); simp; omega
      | some x =>
        dsimp only
        refine le_bind (P := fun _ c => c = 0) (le_free fun _ _ => rfl) ?_
        rintro y _ rfl
        refine le_bind (ih r y true g1) ?_
        rintro ⟨l2, r', e⟩ c' ⟨k1, k2, k3⟩
        simp only [if_true] at k2 k3
        refine le_pure ⟨k1, by dsimp only; omega, ?_⟩
        dsimp only
        cases valid with
        | false => simp; omega
        | true => have := g4 rfl (by omega); simp; omega

end Shrinks

/-! ## Backwards -/
section backward
variable {F : RangePhi PhiRun} {T sa : List Nat} {s : Nat} {kept : Nat → Prop}

/-- a part of the run `k` -/
def PartOf (T sa : List Nat) (k : Nat) (r : PhiRun) : Prop :=
  k < nrun T sa ∧ r.c = sy T sa k ∧ hd T sa k ≤ r.start ∧ r.stop ≤ tl T sa k + 1

theorem BackOK.shrinks (h : BackOK F T sa s kept) (Inv : PhiRun → Prop) (hi : ∀ r : PhiRun, Inv r → Inv { r with stop := r.stop - 1, isRunEnd := false }) :
    Shrinks F (fun r => r.stop - r.start) Inv where
  empty := by intro r; rw [h.empty]; simp; omega
  update := by
    intro r r' h1 h2 e
    rw [h.update, updateRun_eq r (by omega), Option.some_inj] at e
    subst e
    exact ⟨hi r h1, by dsimp only; omega⟩

theorem BackOK.shrinksPart (h : BackOK F T sa s kept) (k : Nat) : Shrinks F (fun r => r.stop - r.start) (PartOf T sa k) :=
  h.shrinks _ (fun r h => ⟨h.1, h.2.1, h.2.2.1, by have := h.2.2.2; dsimp only; omega⟩)

theorem BackOK.nav_size (h : BackOK F T sa s kept) {k : Nat} {r q : PhiRun} (hp : PartOf T sa k r) (hr : r.start < r.stop)
    (e : F.navigate r = some q) : q.start < q.stop ∧ q.stop ≤ T.length ∧ q.stop - q.start = r.stop - r.start := by
  obtain ⟨h1, h2, h3, h4⟩ := hp
  obtain ⟨q', e', a, b⟩ := h.nav r k h1 h2 h3 hr h4
  rw [e, Option.some_inj] at e'
  subst e'
  have hb := lf_block h.text h.isSA h1 h3 (r.stop - r.start - 1) (by omega)
  have hlt := tl_lt (sa := sa) h1
  have := lfAt_lt h.isSA (show r.start + (r.stop - r.start - 1) < T.length by omega)
  omega

theorem PiecesRev.size {a b : Nat} {l : List PhiRun} (h : PiecesRev T sa a b l) : l.length ≤ b - a := by
  induction l generalizing b with
  | nil => simp
  | cons r rs ih =>
    obtain ⟨h1, ⟨k, hk⟩, h3⟩ := h
    have := ih h3
    have := hk.ne
    have := h3.le
    simp only [List.length_cons]; omega

/-- the runs of a range: two calls per run, and those for what has no sample -/
theorem BackOK.backRuns_le (h : BackOK F T sa s kept) (k L : Nat) {next : PhiRun → Nat → Cost (List Nat × Nat)}
    (hn : ∀ r p, r.start < r.stop → r.stop ≤ T.length → (next r p).Le (fun _ c => c ≤ k * (r.stop - r.start))) :
    ∀ (l : List PhiRun) (a b prev : Nat), PiecesRev T sa a b l →
      (F.backRunsW L next l prev).Le (fun _ c => c ≤ (k + 2) * (b - a)) := by
  intro l
  induction l with
  | nil => intro a b prev _; exact le_ret (Nat.zero_le _)
  | cons r rs ih =>
    rintro a b prev ⟨rfl, ⟨q, hq⟩, h3⟩
    have hle := h3.le
    have hne := hq.ne
    rw [RangePhi.backRunsW]
    refine le_bind (P := fun _ c => c = 1) (le_call fun _ _ => rfl) ?_
    rintro sample _ rfl
    refine le_bind (P := fun x c => c = 0 ∧ PartOf T sa q x.2.2 ∧ x.2.2.stop - x.2.2.start ≤ r.stop - r.start) ?_ ?_
    · have hpart : PartOf T sa q r := ⟨hq.lt, hq.c, hq.lo, hq.hi⟩
      cases sample with
      | none => exact le_pure ⟨rfl, hpart, Nat.le_refl _⟩
      | some x =>
        refine le_bind (P := fun _ c => c = 0) (le_free fun _ _ => rfl) ?_
        rintro v _ rfl
        refine le_bind (P := fun x c => c = 0 ∧ PartOf T sa q x ∧ x.stop - x.start + 1 = r.stop - r.start)
          (le_free fun x e => ⟨rfl, (h.shrinksPart q).update r x hpart (by omega) e⟩) ?_
        rintro r' _ ⟨rfl, e1, e2⟩
        exact le_pure ⟨rfl, e1, by dsimp only; omega⟩
    · rintro ⟨rep, p, r'⟩ _ ⟨rfl, e1, e2⟩
      dsimp only at e1 e2 ⊢
      refine le_bind (P := fun _ c => c ≤ 1 + k * (r.stop - r.start)) ?_ ?_
      · refine le_ite (fun _ => le_pure (Nat.zero_le _)) (fun he => ?_)
        rw [h.empty] at he
        have hr : r'.start < r'.stop := by simpa using he
        refine le_bind (P := fun x c => c = 1 ∧ x.start < x.stop ∧ x.stop ≤ T.length ∧ x.stop - x.start = r'.stop - r'.start)
          (le_call fun x e => ⟨rfl, h.nav_size e1 hr e⟩) ?_
        rintro x _ ⟨rfl, x1, x2, x3⟩
        refine (hn x p x1 x2).mono (fun _ c hc => ?_)
        rw [x3] at hc
        have := Nat.mul_le_mul_left k e2
        omega
      · rintro ⟨rep2, p2⟩ c hc
        refine le_bind (ih a r.start p2 h3) ?_
        rintro ⟨rep3, p3⟩ c' hc'
        refine le_pure ?_
        have e : (k + 2) * (r.stop - a) = k * (r.stop - r.start) + 2 * (r.stop - r.start) + (k + 2) * (r.start - a) := by
          rw [← Nat.add_mul, ← Nat.mul_add]; congr 1; omega
        omega

theorem BackOK.backCompute_le (h : BackOK F T sa s kept) (depth : Nat) : ∀ (L : Nat) (r : PhiRun) (p : Nat), r.start < r.stop →
    r.stop ≤ T.length → (F.backComputeW depth L r p).Le (fun _ c => c ≤ (1 + 4 * (s - L)) * (r.stop - r.start)) := by
  induction depth with
  | zero => intro L r p _ _; exact le_none
  | succ depth ih =>
    intro L r p h1 h2
    rw [RangePhi.backComputeW, h.rate]
    refine le_ite (fun hL => ?_) (fun hL => ?_)
    · refine ((h.shrinks (fun _ => True) (fun _ _ => trivial)).phiWhile _ r p trivial (by omega)).mono (fun _ c hc => ?_)
      exact Nat.le_trans hc (Nat.le_mul_of_pos_left _ (by omega))
    · refine le_bind (P := fun l c => c ≤ 1 + (r.stop - r.start) ∧ PiecesRev T sa r.start r.stop l.reverse) (le_split ?_) ?_
      · intro l e
        obtain ⟨l', e', hp⟩ := h.split r h1 h2
        rw [e, Option.some_inj] at e'
        subst e'
        have := hp.size
        rw [List.length_reverse] at this
        exact ⟨by omega, hp⟩
      · rintro l c ⟨hc, hp⟩
        refine (h.backRuns_le (1 + 4 * (s - (L + 1))) L (ih (L + 1)) _ _ _ p hp).mono (fun _ c' hc' => ?_)
        have e : (1 + 4 * (s - L)) * (r.stop - r.start) = (1 + 4 * (s - (L + 1)) + 2) * (r.stop - r.start) + 2 * (r.stop - r.start) := by
          rw [← Nat.add_mul]; congr 1; omega
        omega

theorem BackOK.backRange_le (h : BackOK F T sa s kept) {a b : Nat} {l : List PhiRun} (hp : PiecesRev T sa a b l.reverse) (prev : Nat) :
    (F.backRangeW l prev).Le (fun _ c => c ≤ (4 * s + 3) * (b - a)) := by
  rw [RangePhi.backRangeW]
  refine le_bind (h.backRuns_le (1 + 4 * (s - 1)) 0 ?_ _ a b prev hp) ?_
  · rw [h.rate]; exact h.backCompute_le (s + 1) 1
  · rintro ⟨l', e⟩ c hc
    exact le_pure (Nat.le_trans hc (Nat.mul_le_mul_right _ (by omega)))

/-- the same with validity information -/
theorem BackOK.backRunsV_le (h : BackOK F T sa s kept) (k L : Nat) {next : PhiRun → Nat → Bool → Cost (List Nat × Nat × Bool)} (hk : 2 ≤ k)
    (hn : ∀ r p v, r.start < r.stop → r.stop ≤ T.length → (next r p v).Le (fun _ c => c ≤ k * (r.stop - r.start))) :
    ∀ (l : List PhiRun) (a b value : Nat) (valid : Bool), PiecesRev T sa a b l →
      (F.backRunsVW L next l value valid).Le (fun _ c => c ≤ (k + 2) * (b - a)) := by
  intro l
  induction l with
  | nil => intro a b value valid _; exact le_ret (Nat.zero_le _)
  | cons r rs ih =>
    rintro a b value valid ⟨rfl, ⟨q, hq⟩, h3⟩
    have hle := h3.le
    have hne := hq.ne
    rw [RangePhi.backRunsVW]
    refine le_bind ((h.shrinksPart q).runValid _ _ r value valid ⟨hq.lt, hq.c, hq.lo, hq.hi⟩) ?_
    rintro ⟨rep, r', value', valid'⟩ c1 ⟨e1, e2, e3⟩
    dsimp only at e1 e2 e3 ⊢
    have e4 : c1 + 2 * (r'.stop - r'.start) ≤ 2 * (r.stop - r.start) + 1 := by split at e3 <;> omega
    refine le_bind (P := fun _ c => c1 + c ≤ 2 + k * (r.stop - r.start)) ?_ ?_
    · have hm : k * (r.stop - r.start) = k * (r.stop - r.start - (r'.stop - r'.start)) + k * (r'.stop - r'.start) := by
        rw [← Nat.mul_add]; congr 1; omega
      have hm2 := Nat.mul_le_mul_right (r.stop - r.start - (r'.stop - r'.start)) hk
      refine le_ite (fun _ => le_pure (by omega)) (fun he => ?_)
      rw [h.empty] at he
      have hr : r'.start < r'.stop := by simpa using he
      refine le_bind (P := fun x c => c = 1 ∧ x.start < x.stop ∧ x.stop ≤ T.length ∧ x.stop - x.start = r'.stop - r'.start)
        (le_call fun x e => ⟨rfl, h.nav_size e1 hr e⟩) ?_
      rintro x _ ⟨rfl, x1, x2, x3⟩
      refine (hn x _ _ x1 x2).mono (fun _ c hc => ?_)
      rw [x3] at hc
      omega
    · rintro ⟨rep2, v2, ok2⟩ c hc
      refine le_bind (ih a r.start v2 ok2 h3) ?_
      rintro ⟨rep3, p3⟩ c' hc'
      refine le_pure ?_
      have e : (k + 2) * (r.stop - a) = k * (r.stop - r.start) + 2 * (r.stop - r.start) + (k + 2) * (r.start - a) := by
        rw [← Nat.add_mul, ← Nat.mul_add]; congr 1; omega
      omega

theorem BackOK.backComputeV_le (h : BackOK F T sa s kept) (depth : Nat) : ∀ (L : Nat) (r : PhiRun) (p : Nat) (v : Bool), r.start < r.stop →
    r.stop ≤ T.length → (F.backComputeVW depth L r p v).Le (fun _ c => c ≤ (2 + 4 * (s - L)) * (r.stop - r.start)) := by
  induction depth with
  | zero => intro L r p v _ _; exact le_none
  | succ depth ih =>
    intro L r p v h1 h2
    rw [RangePhi.backComputeVW, h.rate]
    refine le_ite (fun hL => ?_) (fun hL => ?_)
    · refine ((h.shrinks (fun _ => True) (fun _ _ => trivial)).phiWhileV _ r p trivial (by omega)).mono (fun _ c hc => ?_)
      exact Nat.le_trans hc (Nat.le_mul_of_pos_left _ (by omega))
    · refine le_bind (P := fun l c => c ≤ 1 + (r.stop - r.start) ∧ PiecesRev T sa r.start r.stop l.reverse) (le_split ?_) ?_
      · intro l e
        obtain ⟨l', e', hp⟩ := h.split r h1 h2
        rw [e, Option.some_inj] at e'
        subst e'
        have := hp.size
        rw [List.length_reverse] at this
        exact ⟨by omega, hp⟩
      · rintro l c ⟨hc, hp⟩
        refine (h.backRunsV_le (2 + 4 * (s - (L + 1))) L (by omega) (ih (L + 1)) _ _ _ p v hp).mono (fun _ c' hc' => ?_)
        have e : (2 + 4 * (s - L)) * (r.stop - r.start) = (2 + 4 * (s - (L + 1)) + 2) * (r.stop - r.start) + 2 * (r.stop - r.start) := by
          rw [← Nat.add_mul]; congr 1; omega
        omega

theorem BackOK.backRangeV_le (h : BackOK F T sa s kept) {a b : Nat} (hab : a < b) {runs : Option (List PhiRun)}
    (hp : ∀ l, runs = some l → PiecesRev T sa a b l.reverse) (prev : Nat) :
    (F.backRangeVW runs prev).Le (fun _ c => c ≤ (4 * s + 7) * (b - a)) := by
  rw [RangePhi.backRangeVW]
  refine le_bind (P := fun _ c => c = 1) (le_call fun _ _ => rfl) ?_
  rintro ⟨value, valid⟩ _ rfl
  refine le_bind (P := fun l c => c ≤ 1 + (b - a) ∧ PiecesRev T sa a b l.reverse) (le_split ?_) ?_
  · intro l e
    have := (hp l e).size
    rw [List.length_reverse] at this
    exact ⟨by omega, hp l e⟩
  · rintro l c ⟨hc, hp⟩
    refine le_bind (h.backRunsV_le (2 + 4 * (s - 1)) 0 (by omega) ?_ _ a b value valid hp) ?_
    · rw [h.rate]; exact h.backComputeV_le (s + 1) 1
    · rintro ⟨l', e⟩ c' hc'
      refine le_pure ?_
      have e := Nat.mul_le_mul_right (b - a) (show 2 + 4 * (s - 1) + 2 ≤ 4 * s + 4 by omega)
      have e' : (4 * s + 7) * (b - a) = (4 * s + 4) * (b - a) + 3 * (b - a) := by rw [← Nat.add_mul]
      omega

end backward

/-! ## Forwards -/
section forward
variable {F : RangePhi FRun} {T sa : List Nat} {s : Nat} {kept : Nat → Prop} {Good : FRun → Prop}

theorem ForwOK.shrinks (h : ForwOK F T sa s kept Good) : Shrinks F (fun r => r.stop - r.start) (fun r => r.stop ≤ T.length) where
  empty := by intro r; rw [h.empty]; simp; omega
  update := by
    intro r r' h1 h2 e
    rw [h.update, SrCSA.updateRun, Option.some_inj] at e
    subst e
    exact ⟨h1, by dsimp only at h2 ⊢; omega⟩

theorem Images.size {n : Nat} {f : Nat → Nat} {l : List FRun} : ∀ {a b : Nat}, Images n f Good a b l → l.length ≤ b - a ∧ a ≤ b := by
  induction l with
  | nil => intro a b h; exact ⟨Nat.zero_le _, Nat.le_of_eq h⟩
  | cons r rs ih =>
    rintro a b h
    have hl := ih h.2.2.2.2.2
    have := h.2.1
    simp only [List.length_cons]
    constructor <;> omega

/-- one traversal per run of a list -/
theorem Images.fold_le {σ : Type} {n k : Nat} {f : Nat → Nat} {g : σ → FRun → Cost σ}
    (hg : ∀ x r, r.start < r.stop → r.stop ≤ n → (g x r).Le (fun _ c => c ≤ k * (r.stop - r.start))) :
    ∀ (l : List FRun) (a b : Nat) (x : σ), Images n f Good a b l → (l.foldlM g x).Le (fun _ c => c ≤ k * (b - a)) := by
  intro l
  induction l with
  | nil => intro a b x _; exact le_pure (Nat.zero_le _)
  | cons r rs ih =>
    rintro a b x ⟨-, h1, h2, h3, -, h4⟩
    rw [List.foldlM_cons]
    refine le_bind (hg x r h1 h2) ?_
    rintro y c hc
    refine (ih _ b y h4).mono (fun _ d hd => ?_)
    have e : k * (b - a) = k * (r.stop - r.start) + k * (b - (a + (r.stop - r.start))) := by
      rw [← Nat.mul_add]; congr 1; omega
    omega

theorem ForwOK.split_le (h : ForwOK F T sa s kept Good) {r : FRun} (h1 : r.start < r.stop) (h2 : r.stop ≤ T.length) :
    (Cost.split (F.splitRun r)).Le (fun l c => c ≤ 1 + (r.stop - r.start) ∧ Images T.length (psiAt T sa) Good r.start r.stop l) := by
  refine le_split ?_
  intro l e
  obtain ⟨l', e', hp⟩ := h.split r h1 h2
  rw [e, Option.some_inj] at e'
  subst e'
  exact ⟨by have := hp.size; omega, hp⟩

theorem ForwOK.forwCompute_le (h : ForwOK F T sa s kept Good) (depth : Nat) : ∀ (t : Nat) (r : FRun) (p : Nat), r.start < r.stop →
    r.stop ≤ T.length → (F.forwComputeW depth t r p).Le (fun _ c => c ≤ (1 + 3 * (s + 1 - t)) * (r.stop - r.start)) := by
  induction depth with
  | zero => intro t r p _ _; exact le_none
  | succ depth ih =>
    intro t r p h1 h2
    rw [RangePhi.forwComputeW, h.rate]
    refine le_ite (fun hL => ?_) (fun hL => ?_)
    · refine (h.shrinks.phiWhile _ r p h2 (by omega)).mono (fun _ c hc => ?_)
      exact Nat.le_trans hc (Nat.le_mul_of_pos_left _ (by omega))
    · have e : (1 + 3 * (s + 1 - t)) * (r.stop - r.start) = (1 + 3 * (s + 1 - (t + 1))) * (r.stop - r.start) + 3 * (r.stop - r.start) := by
        rw [← Nat.add_mul]; congr 1; omega
      refine le_bind (P := fun _ c => c = 1) (le_call fun _ _ => rfl) ?_
      rintro sample _ rfl
      refine le_bind (P := fun x c => c = 0 ∧ x.2.2.stop ≤ T.length ∧ x.2.2.stop - x.2.2.start ≤ r.stop - r.start) ?_ ?_
      · cases sample with
        | none => exact le_pure ⟨rfl, h2, Nat.le_refl _⟩
        | some x =>
          refine le_bind (P := fun _ c => c = 0) (le_free fun _ _ => rfl) ?_
          rintro y _ rfl
          refine le_bind (P := fun _ c => c = 0) (le_free fun _ _ => rfl) ?_
          rintro v _ rfl
          refine le_bind (P := fun x c => c = 0 ∧ x.stop ≤ T.length ∧ x.stop - x.start + 1 = r.stop - r.start)
            (le_free fun x e => ⟨rfl, h.shrinks.update r x h2 (by omega) e⟩) ?_
          rintro r' _ ⟨rfl, e1, e2⟩
          exact le_pure ⟨rfl, e1, by dsimp only; omega⟩
      · rintro ⟨rep, p', r'⟩ _ ⟨rfl, e1, e2⟩
        dsimp only at e1 e2 ⊢
        refine le_ite (fun _ => le_pure (by omega)) (fun he => ?_)
        rw [h.empty] at he
        have hr : r'.start < r'.stop := by simpa using he
        refine le_bind (h.split_le hr e1) ?_
        rintro l c ⟨hc, hp⟩
        refine le_bind (hp.fold_le (k := 1 + 3 * (s + 1 - (t + 1))) ?_ l r'.start r'.stop ([], p')) ?_
        · rintro ⟨x, y⟩ q q1 q2
          refine le_bind (ih (t + 1) q y q1 q2) ?_
          rintro ⟨l', p''⟩ d hd
          exact le_pure (by omega)
        · rintro ⟨l', p''⟩ d hd
          refine le_pure ?_
          have := Nat.mul_le_mul_left (1 + 3 * (s + 1 - (t + 1))) e2
          omega

theorem ForwOK.forwRange_le (h : ForwOK F T sa s kept Good) {a b : Nat} {l : List FRun} (hp : Images T.length id Good a b l) (prev : Nat) :
    (F.forwRangeW l prev).Le (fun _ c => c ≤ (3 * s + 1) * (b - a)) := by
  rw [RangePhi.forwRangeW, h.rate]
  refine le_bind (hp.fold_le (k := 3 * s + 1) ?_ l a b ([], prev)) ?_
  · rintro ⟨x, y⟩ q q1 q2
    refine le_bind (h.forwCompute_le (s + 1) 1 q y q1 q2) ?_
    rintro ⟨l', p'⟩ d hd
    refine le_pure ?_
    rw [show 1 + 3 * (s + 1 - 1) = 3 * s + 1 by omega] at hd
    omega
  · rintro ⟨l', e⟩ c hc
    exact le_pure hc

/-- the same with validity information -/
theorem ForwOK.forwComputeV_le (h : ForwOK F T sa s kept Good) (depth : Nat) : ∀ (t : Nat) (r : FRun) (p : Nat) (v : Bool), r.start < r.stop →
    r.stop ≤ T.length → (F.forwComputeVW depth t r p v).Le (fun _ c => c ≤ (2 + 3 * (s + 1 - t)) * (r.stop - r.start)) := by
  induction depth with
  | zero => intro t r p v _ _; exact le_none
  | succ depth ih =>
    intro t r p v h1 h2
    rw [RangePhi.forwComputeVW, h.rate]
    refine le_ite (fun hL => ?_) (fun hL => ?_)
    · refine (h.shrinks.phiWhileV _ r p h2 (by omega)).mono (fun _ c hc => ?_)
      exact Nat.le_trans hc (Nat.le_mul_of_pos_left _ (by omega))
    · have e : (2 + 3 * (s + 1 - t)) * (r.stop - r.start) = (2 + 3 * (s + 1 - (t + 1))) * (r.stop - r.start) + 3 * (r.stop - r.start) := by
        rw [← Nat.add_mul]; congr 1; omega
      refine le_bind (h.shrinks.runValid _ _ r p v h2) ?_
      rintro ⟨rep, r', p', v'⟩ c1 ⟨e1, e2, e3⟩
      dsimp only at e1 e2 e3 ⊢
      have e4 : c1 + 2 * (r'.stop - r'.start) ≤ 2 * (r.stop - r.start) + 1 := by split at e3 <;> omega
      have hm : (2 + 3 * (s + 1 - (t + 1))) * (r.stop - r.start) =
          (2 + 3 * (s + 1 - (t + 1))) * (r.stop - r.start - (r'.stop - r'.start)) + (2 + 3 * (s + 1 - (t + 1))) * (r'.stop - r'.start) := by
        rw [← Nat.mul_add]; congr 1; omega
      have hm2 := Nat.mul_le_mul_right (r.stop - r.start - (r'.stop - r'.start)) (show 2 ≤ 2 + 3 * (s + 1 - (t + 1)) by omega)
      refine le_ite (fun _ => le_pure (by omega)) (fun he => ?_)
      rw [h.empty] at he
      have hr : r'.start < r'.stop := by simpa using he
      refine le_bind (h.split_le hr e1) ?_
      rintro l c ⟨hc, hp⟩
      refine le_bind (hp.fold_le (k := 2 + 3 * (s + 1 - (t + 1))) ?_ l r'.start r'.stop ([], p', v')) ?_
      · rintro ⟨x, y, z⟩ q q1 q2
        refine le_bind (ih (t + 1) q y z q1 q2) ?_
        rintro ⟨l', p''⟩ d hd
        exact le_pure (by omega)
      · rintro ⟨l', p''⟩ d hd
        refine le_pure ?_
        omega

theorem ForwOK.forwRangeV_le (h : ForwOK F T sa s kept Good) {a b : Nat} (hab : a < b) {runs : Option (List FRun)}
    (hp : ∀ l, runs = some l → Images T.length id Good a b l) (prev : Nat) :
    (F.forwRangeVW runs prev).Le (fun _ c => c ≤ (3 * s + 5) * (b - a)) := by
  rw [RangePhi.forwRangeVW, h.rate]
  refine le_bind (P := fun _ c => c = 1) (le_call fun _ _ => rfl) ?_
  rintro ⟨value, valid⟩ _ rfl
  refine le_bind (P := fun l c => c ≤ 1 + (b - a) ∧ Images T.length id Good a b l) (le_split ?_) ?_
  · intro l e
    exact ⟨by have := (hp l e).size; omega, hp l e⟩
  · rintro l c ⟨hc, hp⟩
    refine le_bind (hp.fold_le (k := 3 * s + 2) ?_ l a b ([], value, valid)) ?_
    · rintro ⟨x, y, z⟩ q q1 q2
      refine le_bind (h.forwComputeV_le (s + 1) 1 q y z q1 q2) ?_
      rintro ⟨l', p'⟩ d hd
      refine le_pure ?_
      rw [show 2 + 3 * (s + 1 - 1) = 3 * s + 2 by omega] at hd
      omega
    · rintro ⟨l', e⟩ c' hc'
      refine le_pure ?_
      have e' : (3 * s + 5) * (b - a) = (3 * s + 2) * (b - a) + 3 * (b - a) := by rw [← Nat.add_mul]
      omega

end forward

/-! ## The search, the toehold and the loop without sub-sampling -/

theorem phiLoopW_le (phi : Nat → Option (Nat × Bool)) (len : Nat) : ∀ k, (phiLoopW phi len k).Le (fun _ c => c = len) := by
  induction len with
  | zero => intro k; exact le_ret rfl
  | succ len ih =>
    intro k
    rw [phiLoopW]
    refine le_bind (P := fun _ c => c = 1) (le_call fun _ _ => rfl) ?_
    rintro ⟨v, ok⟩ _ rfl
    refine le_bind (ih v) ?_
    rintro l c rfl
    exact le_pure (by omega)

/-- finding a sample after `j` steps of the navigation looks for a sample `j + 1` times -/
theorem findSampleW_le {β : Type} (g : β → Option (Option Nat)) (nv : β → Option β) (fuel : Nat) :
    ∀ d, (findSampleW g nv fuel d).Le (fun a c => c = 2 * a.2 + 1) := by
  induction fuel with
  | zero => intro d; exact le_none
  | succ fuel ih =>
    intro d
    rw [findSampleW]
    refine le_bind (P := fun _ c => c = 1) (le_call fun _ _ => rfl) ?_
    rintro sample _ rfl
    cases sample with
    | some x => exact le_pure rfl
    | none =>
      dsimp only
      refine le_bind (P := fun _ c => c = 1) (le_call fun _ _ => rfl) ?_
      rintro d' _ rfl
      refine le_bind (ih d') ?_
      rintro ⟨x, j⟩ c hc
      refine le_pure ?_
      dsimp only at hc ⊢
      omega

theorem computeToeholdW_le {β : Type} {v : β → Cost Nat} {B n : Nat} {d : StepData β} (h : (v d.run).Le (fun _ c => c ≤ B)) :
    (computeToeholdW v n d).Le (fun _ c => c ≤ B) := by
  rw [computeToeholdW]
  refine le_bind h ?_
  rintro x c hc
  refine le_bind (P := fun _ c => c = 0) (le_free fun _ _ => rfl) ?_
  rintro y _ rfl
  refine le_bind (P := fun _ c => c = 0) (le_free fun _ _ => rfl) ?_
  rintro z _ rfl
  exact le_free fun _ _ => by omega

theorem computeAllValuesW_le {ρ δ : Type} {w : ρ → Nat → Cost (List Nat)} {t : δ → Cost Nat} {u : ρ → Option ρ} {r : ρ} {d : δ} {A B : Nat}
    (ht : (t d).Le (fun _ c => c ≤ A)) (hw : ∀ r' k, u r = some r' → (w r' k).Le (fun _ c => c ≤ B)) :
    (computeAllValuesW w t u r d).Le (fun _ c => c ≤ A + B) := by
  rw [computeAllValuesW]
  refine le_bind ht ?_
  rintro k c hc
  refine le_bind (P := fun r' c => c = 0 ∧ u r = some r') (le_free fun _ e => ⟨rfl, e⟩) ?_
  rintro r' _ ⟨rfl, hr⟩
  refine le_bind (hw r' k hr) ?_
  rintro l c' hc'
  exact le_pure (by omega)

namespace Functors
variable {ρ ν δ : Type} {F : Functors ρ ν δ}

/-- the search makes at most one step per character -/
theorem locateLoopW_le (L : List Nat) : ∀ r d, (F.locateLoopW L r d).Le (fun a c => c ≤ L.length ∧ F.locateLoop L r d = some a) := by
  induction L with
  | nil => intro r d; exact le_ret ⟨Nat.zero_le _, rfl⟩
  | cons x L ih =>
    intro r d
    rw [locateLoopW, locateLoop]
    by_cases he : F.isEmpty r = true
    · rw [if_pos he, if_pos he]; exact le_ret ⟨Nat.zero_le _, rfl⟩
    · rw [if_neg he, if_neg he]
      refine le_bind (P := fun a c => c = 1 ∧ F.lf r (F.getSymbol x) = some a) (le_call fun _ e => ⟨rfl, e⟩) ?_
      rintro nr _ ⟨rfl, e1⟩
      refine le_bind (P := fun a c => c = 0 ∧ F.update r nr (F.getSymbol x) L.length d = some a) (le_free fun _ e => ⟨rfl, e⟩) ?_
      rintro d' _ ⟨rfl, e2⟩
      refine (ih _ d').mono (fun a c hc => ⟨?_, ?_⟩)
      · rw [List.length_cons]; omega
      · dsimp only
        rw [e1, Option.bind_eq_bind, Option.bind_some, e2, Option.bind_eq_bind, Option.bind_some]
        exact hc.2

theorem locateW_le {w : ρ → δ → Cost (List Nat)} {P : List Nat} {r : ρ} {d : δ} {B : Nat}
    (hl : F.locateLoop P.reverse (F.fullRange F.bwtSize) (F.initial (P.length - 1)) = some (r, d))
    (hw : F.isEmpty r = false → (w r d).Le (fun _ c => c ≤ B)) :
    (F.locateW w P).Le (fun _ c => c ≤ P.length + if F.isEmpty r then 0 else B) := by
  rw [locateW]
  refine le_bind (F.locateLoopW_le _ _ _) ?_
  rintro ⟨r', d'⟩ c ⟨h1, h2⟩
  rw [hl, Option.some_inj, Prod.mk.injEq] at h2
  obtain ⟨rfl, rfl⟩ := h2
  rw [List.length_reverse] at h1
  dsimp only
  refine le_ite (fun he => le_pure (by rw [if_pos he]; omega)) (fun he => ?_)
  rw [if_neg he]
  exact (hw (by simpa using he)).mono (fun _ c' hc' => by omega)

end Functors
end Sri
