import Verif.Proofs.SrCSAOps
/-! # Reporting a range forwards from a toehold that is wrong

What Locate of the empty pattern does on the sub-sampled CSAs: the initial toehold data stand for `SA[LF(0)]`, not for `SA[0]`. A position
that meets a kept head soon enough is reported rightly whatever the toehold is. -/
namespace Sri
set_option autoImplicit false

section
variable {T sa : List Nat} {kept : Nat → Prop} {s : Nat} {Good : FRun → Prop} {F : RangePhi FRun}

/-- phi answers with text positions -/
def PhiLt (n : Nat) (phi : Nat → Option (Nat × Bool)) : Prop := ∀ v w ok, phi v = some (w, ok) → w < n

/-- `x + j` meets a kept head in fewer than `s` psi steps -/
def Soon (T sa : List Nat) (kept : Nat → Prop) (s x : Nat) : Prop := ∃ e, e < s ∧ kept (psiIt T sa e x)

/-- the list holds a value for each of the `len` positions from `x`, the right one for those that meet a kept head soon -/
def RightSoon (T sa : List Nat) (kept : Nat → Prop) (s x len : Nat) (l : List Nat) : Prop :=
  l.length = len ∧ ∀ j, j < len → Soon T sa kept s (x + j) → l[j]? = some (saAt sa (x + j))

theorem RightSoon.nil (x : Nat) : RightSoon T sa kept s x 0 [] := ⟨rfl, fun _ h => absurd h (by omega)⟩

theorem RightSoon.append {x a b : Nat} {l m : List Nat} (h1 : RightSoon T sa kept s x a l) (h2 : RightSoon T sa kept s (x + a) b m) :
    RightSoon T sa kept s x (a + b) (l ++ m) := by
  refine ⟨by rw [List.length_append, h1.1, h2.1], ?_⟩
  intro j hj hs
  by_cases hlt : j < a
  · rw [List.getElem?_append_left (by rw [h1.1]; exact hlt)]
    exact h1.2 j hlt hs
  · rw [List.getElem?_append_right (by rw [h1.1]; omega), h1.1]
    have := h2.2 (j - a) (by omega) (by rw [show x + a + (j - a) = x + j by omega]; exact hs)
    rw [show x + a + (j - a) = x + j by omega] at this
    exact this

def AnySpecF (T sa : List Nat) (kept : Nat → Prop) (s : Nat) (Good : FRun → Prop) (t : Nat) (f : FRun → Nat → Option (List Nat × Nat)) :
    Prop :=
  ∀ (r : FRun) (x prev : Nat), AtF T sa kept Good t r x → x + (r.stop - r.start) ≤ T.length → prev < T.length →
    ∃ l p, f r prev = some (l, p) ∧ p < T.length ∧ RightSoon T sa kept s x (r.stop - r.start) l

theorem fold_any {t : Nat} {f : FRun → Nat → Option (List Nat × Nat)} (hf : AnySpecF T sa kept s Good t f) :
    ∀ (l : List FRun) (x y prev : Nat) (acc : List Nat), Chain (AtF T sa kept Good t) x y l → y ≤ T.length → prev < T.length →
      ∃ m p, l.foldlM (fun (acc : List Nat × Nat) r => do
          let (l, p) ← f r acc.2
          return (acc.1 ++ l, p)) (acc, prev) = some (acc ++ m, p) ∧ p < T.length ∧ x ≤ y ∧ RightSoon T sa kept s x (y - x) m := by
  intro l
  induction l with
  | nil =>
    intro x y prev acc hc hy hp
    have : x = y := hc
    subst this
    exact ⟨[], prev, by simp, hp, Nat.le_refl _, by rw [Nat.sub_self]; exact RightSoon.nil x⟩
  | cons r rs ih =>
    rintro x y prev acc ⟨hr, hle, hc⟩ hy hp
    have h2 := hr.2.1
    obtain ⟨m, p, e, e1, e2⟩ := hf r x prev hr (by omega) hp
    obtain ⟨m', p', f1, f2, f3, f4⟩ := ih (x + (r.stop - r.start)) y p (acc ++ m) hc hy e1
    simp only [Option.bind_eq_bind, Option.pure_def] at f1
    refine ⟨m ++ m', p', ?_, f2, by omega, ?_⟩
    · simp only [List.foldlM_cons, e, Option.bind_eq_bind, Option.bind_some, Option.pure_def]
      rw [f1, List.append_assoc]
    · have := e2.append f4
      rwa [show r.stop - r.start + (y - (x + (r.stop - r.start))) = y - x by omega] at this

theorem phiWhile_any (h : ForwOK F T sa s kept Good) (hlt : PhiLt T.length F.phi) (len : Nat) : ∀ (fuel : Nat) (r : FRun) (prev : Nat),
    len < fuel → r.stop - r.start = len + 1 → prev < T.length →
    ∃ l p, F.phiWhile fuel r prev = some (l, p) ∧ p < T.length ∧ l.length = len + 1 := by
  induction len with
  | zero =>
    intro fuel r prev hf hl hp
    obtain ⟨fuel, rfl⟩ : ∃ g, fuel = g + 1 := ⟨fuel - 1, by omega⟩
    obtain ⟨v, ok, e1, -⟩ := h.phi (isaOf sa prev) (isaOf_lt h.isSA hp)
    rw [saAt_isaOf h.isSA hp] at e1
    refine ⟨[v], v, ?_, hlt _ _ _ e1, rfl⟩
    rw [RangePhi.phiWhile, e1]
    simp only [Option.bind_eq_bind, Option.bind_some]
    rw [h.update, h.empty]
    simp only [SrCSA.updateRun, Option.bind_some, show ¬ r.start + 1 < r.stop by omega, decide_false, Bool.not_false, if_true]
    rfl
  | succ len ih =>
    intro fuel r prev hf hl hp
    obtain ⟨fuel, rfl⟩ : ∃ g, fuel = g + 1 := ⟨fuel - 1, by omega⟩
    obtain ⟨v, ok, e1, -⟩ := h.phi (isaOf sa prev) (isaOf_lt h.isSA hp)
    rw [saAt_isaOf h.isSA hp] at e1
    obtain ⟨l, p, f1, f2, f3⟩ := ih fuel { r with start := r.start + 1, isRunStart := false } v (by omega) (by dsimp only; omega)
      (hlt _ _ _ e1)
    refine ⟨v :: l, p, ?_, f2, by rw [List.length_cons, f3]⟩
    rw [RangePhi.phiWhile, e1]
    simp only [Option.bind_eq_bind, Option.bind_some]
    rw [h.update, h.empty]
    simp only [SrCSA.updateRun, Option.bind_some, show r.start + 1 < r.stop by omega, decide_true, Bool.not_true, Bool.false_eq_true,
      if_false, f1]
    rfl

theorem forwCompute_any (h : ForwOK F T sa s kept Good) (hlt : PhiLt T.length F.phi) (depth : Nat) : ∀ t, s + 1 ≤ t + depth → 1 ≤ depth →
    AnySpecF T sa kept s Good t (F.forwCompute depth (t + 1)) := by
  induction depth with
  | zero => intro t _ h1; omega
  | succ depth ih =>
    rintro t ht1 - r x prev ⟨hg, hne, hst, ht⟩ hxn hp
    rw [RangePhi.forwCompute]
    by_cases hs : F.samplingSize < t + 1
    · rw [if_pos hs]
      obtain ⟨l, p, e1, e2, e3⟩ := phiWhile_any h hlt (r.stop - r.start - 1) F.seqSize r prev (by rw [h.seq]; omega) (by omega) hp
      refine ⟨l, p, e1, e2, by omega, ?_⟩
      rintro j hj ⟨e, he, hk⟩
      rw [h.rate] at hs
      exact absurd hk ((ht j hj).2 e (by omega))
    · rw [if_neg hs]
      rw [h.rate] at hs
      have hnext := ih (t + 1) (by omega) (by omega)
      generalize F.forwCompute depth (t + 1 + 1) = f at hnext ⊢
      have htn := h.trav_lt ht (by omega) (by omega)
      by_cases hk : kept r.start
      · have hval := sample_value_forw h.isSA (x := x) (by omega) (Nat.le_of_lt htn) (ht 0 (by omega)).1
        simp only [Nat.add_zero] at hval
        obtain ⟨z, hc, hz⟩ : ∃ z, csub (pv T sa r.start + 1 + T.length) (t + 1) = some z ∧ z + 1 = pv T sa r.start + 1 + T.length - t :=
          ⟨_, by rw [csub, if_pos (by omega)], by omega⟩
        rw [← hz] at hval
        have hone : RightSoon T sa kept s x 1 [saAt sa x] := by
          refine ⟨rfl, ?_⟩
          intro j hj _
          obtain rfl : j = 0 := by omega
          rfl
        simp only [h.sampled r hg hne hst hk, Option.bind_eq_bind, Option.bind_some, h.seq, hc, cmod, show T.length ≠ 0 by omega,
          if_false, hval,
          h.update, SrCSA.updateRun, Option.pure_def, h.empty]
        by_cases hem : r.start + 1 < r.stop
        · obtain ⟨l, e1, e2⟩ := h.split { r with start := r.start + 1, isRunStart := false } hem hst
          dsimp only at e2
          have hch := chain_of_images (t := t) (x := x) (a := r.start) l (r.start + 1) r.stop (by omega) (by omega) ht
            (fun y h1 h2 => h.inside r hg y (by omega) h2) e2
          obtain ⟨m, p, g1, g2, g3, g4⟩ := fold_any hnext l _ _ (saAt sa x) [] hch (by omega) (saAt_lt h.isSA (by omega))
          rw [show x + (r.start + 1 - r.start) = x + 1 by omega] at g4
          simp only [Option.bind_eq_bind, Option.pure_def, List.nil_append] at g1
          refine ⟨[saAt sa x] ++ m, p, ?_, g2, ?_⟩
          · simp only [hem, decide_true, Bool.not_true, Bool.false_eq_true, if_false, e1, Option.bind_some, g1]
          · have := hone.append g4
            rwa [show 1 + (x + (r.stop - r.start) - (x + 1)) = r.stop - r.start by omega] at this
        · refine ⟨[saAt sa x], saAt sa x, ?_, saAt_lt h.isSA (by omega), ?_⟩
          · simp only [hem, decide_false, Bool.not_false, if_true]
          · rw [show r.stop - r.start = 1 by omega]; exact hone
      · obtain ⟨l, e1, e2⟩ := h.split r hne hst
        have hch := chain_of_images (t := t) (x := x) (a := r.start) l r.start r.stop (by omega) (by omega) ht
          (fun y h1 h2 hy => by
            rcases Nat.lt_or_eq_of_le h1 with hlt | rfl
            · exact h.inside r hg y hlt h2 hy
            · exact hk hy) e2
        obtain ⟨m, p, g1, g2, g3, g4⟩ := fold_any hnext l _ _ prev [] hch (by omega) hp
        rw [Nat.sub_self] at g4
        simp only [Nat.add_zero, Option.bind_eq_bind, Option.pure_def, List.nil_append] at g1 g4
        refine ⟨m, p, ?_, g2, ?_⟩
        · simp only [h.noSample r hg hne hst hk, Option.bind_eq_bind, Option.bind_some, Option.pure_def, h.empty, hne, decide_true,
            Bool.not_true, Bool.false_eq_true, if_false, e1, g1, List.nil_append]
        · rwa [show x + (r.stop - r.start) - x = r.stop - r.start by omega] at g4

/-- **any toehold**: a range is reported in full, and rightly at every position that meets a kept head in fewer than `s` psi steps -/
theorem forwRange_any (h : ForwOK F T sa s kept Good) (hlt : PhiLt T.length F.phi) {l : List FRun} {a b prev : Nat} (hb : b ≤ T.length)
    (hp : prev < T.length) (hi : Images T.length id Good a b l) :
    ∃ m, F.forwRange l prev = some m ∧ RightSoon T sa kept s a (b - a) m := by
  unfold RangePhi.forwRange
  obtain ⟨m, p, e1, -, -, e2⟩ := fold_any (forwCompute_any h hlt (F.samplingSize + 1) 0 (by rw [h.rate]; omega) (by omega)) l a b prev []
    (chain_of_id rfl l a b hi) hb hp
  simp only [Option.bind_eq_bind, Option.pure_def, Nat.zero_add, List.nil_append] at e1
  refine ⟨m, ?_, e2⟩
  simp only [Option.bind_eq_bind, Option.pure_def, e1, Option.bind_some]

/-! ## Rate one: phi is right everywhere, only the heads are read -/

/-- phi as in an index that keeps every sample -/
def PhiFull (T sa : List Nat) (phi : Nat → Option (Nat × Bool)) : Prop :=
  ∀ i, i + 1 < T.length → ∃ ok, phi (saAt sa i) = some (saAt sa (i+1), ok)

theorem phiWhile_full (h : ForwOK F T sa s kept Good) (hf : PhiFull T sa F.phi) (len : Nat) : ∀ (fuel : Nat) (r : FRun) (w : Nat),
    len < fuel → r.stop - r.start = len + 1 → w + (len + 1) < T.length →
    F.phiWhile fuel r (saAt sa w) = some (up sa (w + 1) (len + 1), saAt sa (w + (len + 1))) := by
  induction len with
  | zero =>
    intro fuel r w hfu hl hw
    obtain ⟨fuel, rfl⟩ : ∃ g, fuel = g + 1 := ⟨fuel - 1, by omega⟩
    obtain ⟨ok, e1⟩ := hf w (by omega)
    rw [RangePhi.phiWhile, e1]
    simp only [Option.bind_eq_bind, Option.bind_some]
    rw [h.update, h.empty]
    simp only [SrCSA.updateRun, Option.bind_some, show ¬ r.start + 1 < r.stop by omega, decide_false, Bool.not_false, if_true]
    rfl
  | succ len ih =>
    intro fuel r w hfu hl hw
    obtain ⟨fuel, rfl⟩ : ∃ g, fuel = g + 1 := ⟨fuel - 1, by omega⟩
    obtain ⟨ok, e1⟩ := hf w (by omega)
    have e := ih fuel { r with start := r.start + 1, isRunStart := false } (w + 1) (by omega) (by dsimp only; omega) (by omega)
    rw [RangePhi.phiWhile, e1]
    simp only [Option.bind_eq_bind, Option.bind_some]
    rw [h.update, h.empty]
    simp only [SrCSA.updateRun, Option.bind_some, show r.start + 1 < r.stop by omega, decide_true, Bool.not_true, Bool.false_eq_true,
      if_false, e, up_succ (w + 1) (len + 1)]
    rw [show w + 1 + (len + 1) = w + (len + 1 + 1) by omega]
    rfl

/-- runs one after the other, the positions of which are counted from `x` to `y` -/
theorem fold_full {P : FRun → Nat → Prop} {f : FRun → Nat → Option (List Nat × Nat)} (hP : ∀ r x, P r x → r.start < r.stop)
    (hf : ∀ r w, r.start < r.stop → w + (r.stop - r.start) < T.length →
      f r (saAt sa w) = some (up sa (w + 1) (r.stop - r.start), saAt sa (w + (r.stop - r.start)))) :
    ∀ (l : List FRun) (x y w : Nat) (acc : List Nat), Chain P x y l → w + (y - x) < T.length →
      x ≤ y ∧ l.foldlM (fun (acc : List Nat × Nat) r => do
          let (l, p) ← f r acc.2
          return (acc.1 ++ l, p)) (acc, saAt sa w) = some (acc ++ up sa (w + 1) (y - x), saAt sa (w + (y - x))) := by
  intro l
  induction l with
  | nil =>
    intro x y w acc hc hw
    have : x = y := hc
    subst this
    exact ⟨Nat.le_refl _, by simp [up_zero]⟩
  | cons r rs ih =>
    rintro x y w acc ⟨hr, hle, hc⟩ hw
    have hne := hP r x hr
    have e := hf r w hne (by omega)
    obtain ⟨g1, e2⟩ := ih (x + (r.stop - r.start)) y (w + (r.stop - r.start)) (acc ++ up sa (w + 1) (r.stop - r.start)) hc (by omega)
    refine ⟨by omega, ?_⟩
    simp only [List.foldlM_cons, e, Option.bind_eq_bind, Option.bind_some, Option.pure_def]
    simp only [Option.bind_eq_bind, Option.pure_def] at e2
    rw [e2, List.append_assoc, show y - x = (r.stop - r.start) + (y - (x + (r.stop - r.start))) by omega, up_add,
      show w + 1 + (r.stop - r.start) = w + (r.stop - r.start) + 1 by omega,
      show w + (r.stop - r.start) + (y - (x + (r.stop - r.start))) = w + ((r.stop - r.start) + (y - (x + (r.stop - r.start)))) by omega]

/-- one run at rate one -/
theorem forwCompute_one (h : ForwOK F T sa 1 kept Good) (hf : PhiFull T sa F.phi) {r : FRun} {x : Nat} (hr : AtF T sa kept Good 0 r x)
    (hxn : x + (r.stop - r.start) ≤ T.length) :
    (kept r.start → ∀ prev, F.forwCompute 2 1 r prev = some (up sa x (r.stop - r.start), saAt sa (x + (r.stop - r.start) - 1))) ∧
    (¬ kept r.start → ∀ w, w + (r.stop - r.start) < T.length →
      F.forwCompute 2 1 r (saAt sa w) = some (up sa (w + 1) (r.stop - r.start), saAt sa (w + (r.stop - r.start)))) := by
  obtain ⟨hg, hne, hst, ht⟩ := hr
  have hnext : ∀ (r : FRun) (w : Nat), r.start < r.stop → w + (r.stop - r.start) < T.length →
      F.forwCompute 1 (1 + 1) r (saAt sa w) = some (up sa (w + 1) (r.stop - r.start), saAt sa (w + (r.stop - r.start))) := by
    intro r w h1 h2
    rw [RangePhi.forwCompute, if_pos (by rw [h.rate]; omega)]
    have := phiWhile_full h hf (r.stop - r.start - 1) F.seqSize r w (by rw [h.seq]; omega) (by omega) (by omega)
    rwa [show r.stop - r.start - 1 + 1 = r.stop - r.start by omega] at this
  generalize hfd : F.forwCompute 1 (1 + 1) = f at hnext
  have hPne : ∀ (r : FRun) (x : Nat), AtF T sa kept Good 1 r x → r.start < r.stop := fun r x h => h.2.1
  constructor
  · intro hk prev
    rw [RangePhi.forwCompute, if_neg (by rw [h.rate]; omega), hfd]
    have hval := sample_value_forw h.isSA (x := x) (t := 0) (by omega) (by omega) (ht 0 (by omega)).1
    simp only [Nat.add_zero] at hval
    obtain ⟨z, hc, hz⟩ : ∃ z, csub (pv T sa r.start + 1 + T.length) 1 = some z ∧ z + 1 = pv T sa r.start + 1 + T.length - 0 :=
      ⟨_, by rw [csub, if_pos (by omega)], by omega⟩
    rw [← hz] at hval
    simp only [h.sampled r hg hne hst hk, Option.bind_eq_bind, Option.bind_some, h.seq, hc, cmod, show T.length ≠ 0 by omega,
      if_false, hval, h.update, SrCSA.updateRun, Option.pure_def, h.empty]
    by_cases hem : r.start + 1 < r.stop
    · obtain ⟨l, e1, e2⟩ := h.split { r with start := r.start + 1, isRunStart := false } hem hst
      dsimp only at e2
      have hch := chain_of_images (t := 0) (x := x) (a := r.start) l (r.start + 1) r.stop (by omega) (by omega) ht
        (fun y h1 h2 => h.inside r hg y (by omega) h2) e2
      obtain ⟨-, g⟩ := fold_full hPne hnext l _ _ x [] hch (by omega)
      simp only [Option.bind_eq_bind, Option.pure_def, List.nil_append] at g
      simp only [hem, decide_true, Bool.not_true, Bool.false_eq_true, if_false, e1, Option.bind_some, g]
      rw [show x + (r.stop - r.start) - (x + (r.start + 1 - r.start)) = r.stop - r.start - 1 by omega,
        show r.stop - r.start = (r.stop - r.start - 1) + 1 by omega, up_succ, Nat.add_sub_cancel,
        show x + (r.stop - r.start - 1 + 1) - 1 = x + (r.stop - r.start - 1) by omega]
      rfl
    · simp only [hem, decide_false, Bool.not_false, if_true]
      rw [show r.stop - r.start = 1 by omega]
      rfl
  · intro hk w hw
    rw [RangePhi.forwCompute, if_neg (by rw [h.rate]; omega), hfd]
    obtain ⟨l, e1, e2⟩ := h.split r hne hst
    have hch := chain_of_images (t := 0) (x := x) (a := r.start) l r.start r.stop (by omega) (by omega) ht
      (fun y h1 h2 hy => by
        rcases Nat.lt_or_eq_of_le h1 with hlt | rfl
        · exact h.inside r hg y hlt h2 hy
        · exact hk hy) e2
    obtain ⟨-, g⟩ := fold_full hPne hnext l _ _ w [] hch (by omega)
    rw [show x + (r.stop - r.start) - (x + (r.start - r.start)) = r.stop - r.start by omega] at g
    simp only [Option.bind_eq_bind, Option.pure_def, List.nil_append] at g
    simp only [h.noSample r hg hne hst hk, Option.bind_eq_bind, Option.bind_some, Option.pure_def, h.empty, hne, decide_true,
      Bool.not_true, Bool.false_eq_true, if_false, e1, g, List.nil_append]

/-- a chain at rate one from a shifted toehold: up to the first kept head `z` the values are shifted by `k`, from there on they are right -/
theorem fold_one (h : ForwOK F T sa 1 kept Good) (hf : PhiFull T sa F.phi) {k z : Nat} (hz : kept z) (hkz : z + k ≤ T.length) :
    ∀ (l : List FRun) (x y : Nat) (acc : List Nat), Chain (AtF T sa kept Good 0) x y l → 1 ≤ x → y ≤ T.length → x ≤ z → z < y →
      (∀ i, x ≤ i → i < z → ¬ kept i) →
      ∃ p, l.foldlM (fun (acc : List Nat × Nat) r => do
          let (l, p) ← F.forwCompute 2 1 r acc.2
          return (acc.1 ++ l, p)) (acc, saAt sa (x - 1 + k)) = some (acc ++ up sa (x + k) (z - x) ++ up sa z (y - z), p) := by
  intro l
  induction l with
  | nil =>
    intro x y acc hc h1 hy hxz hzy
    have : x = y := hc
    omega
  | cons r rs ih =>
    rintro x y acc ⟨hr, hle, hc⟩ h1 hy hxz hzy hno
    have hne := hr.2.1
    have hst : r.start = x := ((hr.2.2.2 0 (by omega)).1).symm
    obtain ⟨c1, c2⟩ := forwCompute_one h hf hr (by omega)
    by_cases hx : x = z
    · subst hx
      have e := c1 (hst ▸ hz) (saAt sa (x - 1 + k))
      have hspec : ComputeSpecF T sa kept Good 0 (F.forwCompute 2 1) := forwCompute_spec h 2 0 (by omega) (by omega)
      have e2 := fold_chain hspec rs (x + (r.stop - r.start)) y (acc ++ up sa x (r.stop - r.start)) hc (by omega) hy
      refine ⟨saAt sa (y - 1), ?_⟩
      simp only [List.foldlM_cons, e, Option.bind_eq_bind, Option.bind_some, Option.pure_def]
      simp only [Option.bind_eq_bind, Option.pure_def] at e2
      rw [e2, Nat.sub_self, up_zero, List.append_nil, List.append_assoc,
        show y - x = (r.stop - r.start) + (y - (x + (r.stop - r.start))) by omega, up_add]
    · have hin : x + (r.stop - r.start) ≤ z := by
        by_contra hc'
        exact h.inside r hr.1 z (by omega) (by omega) hz
      have e := c2 (by rw [hst]; exact hno x (Nat.le_refl _) (by omega)) (x - 1 + k) (by omega)
      rw [show x - 1 + k + 1 = x + k by omega, show x - 1 + k + (r.stop - r.start) = x + (r.stop - r.start) - 1 + k by omega] at e
      obtain ⟨p, e2⟩ := ih (x + (r.stop - r.start)) y (acc ++ up sa (x + k) (r.stop - r.start)) hc (by omega) hy hin hzy
        (fun i hi => hno i (by omega))
      refine ⟨p, ?_⟩
      simp only [List.foldlM_cons, e, Option.bind_eq_bind, Option.bind_some, Option.pure_def]
      simp only [Option.bind_eq_bind, Option.pure_def] at e2
      rw [e2, List.append_assoc acc, show z - x = (r.stop - r.start) + (z - (x + (r.stop - r.start))) by omega, up_add,
        show x + k + (r.stop - r.start) = x + (r.stop - r.start) + k by omega]
end

namespace SrCSA
variable {I : SrCSA} {T T' sa K : List Nat} {O : ForwOps} {Good : FRun → Prop} {den : FData → Nat → Prop} {Strong : FData → Prop}

theorem OK.phiLt (h : I.OK T sa K) : PhiLt T.length I.phi := by
  intro v w ok e
  have hn := h.nav.text.pos
  unfold phi phiForward at e
  simp only [Option.bind_eq_bind, Option.bind_eq_some_iff, Option.pure_def, Option.some_inj, Prod.mk.injEq, h.nav.n] at e
  obtain ⟨_, -, _, -, _, -, _, -, y, hy, rfl, -⟩ := e
  rw [cmod, if_neg (by omega), Option.some_inj] at hy
  rw [← hy]
  exact Nat.mod_lt _ hn

/-- the position before the terminator's -/
theorem lf_zero (hT : IsText T) (hsa : IsSA T sa) (hn : 2 ≤ T.length) :
    lfAt T sa 0 < T.length ∧ saAt sa (lfAt T sa 0) = T.length - 2 ∧ 1 ≤ lfAt T sa 0 := by
  have h0 := sa_zero hT hsa
  have h1 := lfAt_lt hsa (show 0 < T.length by omega)
  have h2 := sa_lf_of_pos hsa (show 0 < T.length by omega) (by omega)
  refine ⟨h1, by omega, ?_⟩
  by_contra hc
  rw [show lfAt T sa 0 = 0 by omega] at h2
  omega

/-- at rate one every head is kept -/
theorem OK.all_kept (h : I.OK T sa K) (hs : I.s = 1) {y : Nat} (hy : HeadAt T sa y) : keptHd T sa K y := by
  by_contra hc
  obtain ⟨a, b, -, -, h1, h2, h3⟩ := h.sampling.2 y hy hc
  omega

/-- then phi is the one of an index that is not sub-sampled -/
theorem OK.phiFull (h : I.OK T sa K) (hs : I.s = 1) : PhiFull T sa I.phi := by
  intro i hi
  have hT := h.nav.text
  have hsa := h.nav.isSA
  have hn := hT.pos
  obtain ⟨o, p, j, y, e1, e2, e3, -, -, e4, e5, e6, e7, -⟩ := h.succ (i := i) (by omega)
  refine ⟨false, ?_⟩
  have hall : (fun x => x ∈ K.map (mkOf T sa)) = TailMark T sa := by
    funext x
    refine propext ⟨h.sub_mark, ?_⟩
    rintro ⟨t, ht, rfl⟩
    obtain ⟨q, hq, hq1⟩ := h.all_kept hs (head_after hT hsa ht)
    exact List.mem_map.2 ⟨q, hq, mkOf_after hsa ht.1 hq1⟩
  rw [hall] at e4
  rw [← e7 e4 hi]
  unfold phi phiForward
  simp only [e1, Option.bind_eq_bind, Option.bind_some, csub, e5, if_true]
  unfold getSampleForPhi validatorDefault
  simp only [e2, Option.map_some, Option.bind_eq_bind, Option.bind_some, e3, h.nav.n, Option.pure_def,
    show p - saAt sa i ≤ y + T.length by omega, if_true, cmod, show T.length ≠ 0 by omega, if_false]

/-- at rate two or more, the position before the terminator's meets a kept head soon -/
theorem OK.soon (h : I.OK T sa K) (hn : 2 ≤ T.length) (hs : 2 ≤ I.s) : Soon T sa (keptHd T sa K) I.s (lfAt T sa 0) := by
  have hT := h.nav.text
  have hsa := h.nav.isSA
  have h0 := sa_zero hT hsa
  have hpsi := psi_lf hsa (show 0 < T.length by omega)
  obtain ⟨y1, y2, y3⟩ := lf_zero hT hsa hn
  by_cases hk : keptHd T sa K 0
  · refine ⟨1, by omega, ?_⟩
    rw [psiIt_succ, psiIt_zero, hpsi]; exact hk
  · by_cases h3 : 3 ≤ I.s
    · refine ⟨2, by omega, ?_⟩
      rw [psiIt_succ, psiIt_succ, psiIt_zero, hpsi]
      refine h.kept_zero (psiAt_lt hsa (by omega)) ?_
      rw [saAt_psiAt hsa (by omega), h0, Nat.sub_add_cancel (by omega), Nat.mod_self]
    · obtain ⟨a, b, ha, -, h4, h5, h6⟩ := h.sampling.2 0 ⟨by omega, Or.inl rfl⟩ hk
      have hb := pv_lt (T := T) (sa := sa) (i := b) (by omega)
      have hp0 : pv T sa 0 = T.length - 2 := by rw [pv_of_pos hsa (show 0 < T.length by omega) (by omega), h0]; omega
      have hpy := pv_of_pos hsa y1 (show 0 < saAt sa (lfAt T sa 0) by omega)
      refine ⟨0, by omega, ?_⟩
      have : a = lfAt T sa 0 := pv_inj hsa (h.sampling.1 a ha).1 y1 (by omega)
      rw [psiIt_zero, ← this]; exact ha

/-- the data Locate starts with (sr_csa.h:256, 469, sr_csa_psi.h:113) -/
def data0 : FData := { pos := 0, c := 0, rank := 0, isRunStart := false }

/-- the initial data of Locate give the position before the terminator's as the toehold -/
theorem OK.toehold_zero (h : I.OK T sa K) (ho : OpsOK O T sa K Good den Strong) (hn : 2 ≤ T.length)
    (hi : O.getSampleData data0 = some none ∨ O.getSampleData data0 = some (some (pv T sa 0))) :
    computeToehold (I.saValueOfRun O) I.n { step := 0, run := data0 } = some (T.length - 2) := by
  have hT := h.nav.text
  have hsa := h.nav.isSA
  have h0 := sa_zero hT hsa
  have hv : I.saValueOfRun O data0 = some (T.length - 1) := by
    unfold saValueOfRun saValueForward
    rw [h.nav.n, findSample]
    rcases hi with hi | hi
    · obtain ⟨d', n1, n2, n3⟩ := ho.navigate data0 (show 0 < T.length by omega)
      have hz : saAt sa d'.pos = 0 := by
        rw [n2, show data0.pos = 0 from rfl, saAt_psiAt hsa (by omega), h0, Nat.sub_add_cancel (by omega), Nat.mod_self]
      have hlt' : d'.pos < T.length := by rw [n2]; exact psiAt_lt hsa (show 0 < T.length by omega)
      have hg' := (ho.data d' n3 hlt').1 (h.kept_zero hlt' hz)
      rw [pv_of_zero (by omega) hz] at hg'
      simp only [hi, Option.bind_eq_bind, Option.bind_some, n1]
      rw [findSample]
      simp only [hg', Option.bind_eq_bind, Option.bind_some, Option.pure_def, csub, Nat.zero_add,
        show 1 ≤ T.length - 1 + 1 + T.length by omega, if_true, cmod, show T.length ≠ 0 by omega, if_false]
      rw [show T.length - 1 + 1 + T.length - 1 = T.length - 1 + T.length by omega, Nat.add_mod_right, Nat.mod_eq_of_lt (by omega)]
    · rw [pv_of_pos hsa (by omega) (by omega), h0] at hi
      simp only [hi, Option.bind_eq_bind, Option.bind_some, Option.pure_def, csub, Nat.zero_le, if_true, cmod,
        show T.length ≠ 0 by omega, if_false]
      rw [show T.length - 1 - 1 + 1 + T.length - 0 = T.length - 1 + T.length by omega, Nat.add_mod_right, Nat.mod_eq_of_lt (by omega)]
  unfold computeToehold
  simp only [hv, Option.bind_eq_bind, Option.bind_some, h.nav.n, csub, Nat.zero_le, if_true, Nat.sub_zero,
    show 1 ≤ T.length - 1 + T.length by omega, cmod, show T.length ≠ 0 by omega, if_false]
  rw [show T.length - 1 + T.length - 1 = T.length - 2 + T.length by omega, Nat.add_mod_right, Nat.mod_eq_of_lt (by omega)]

/-- up to the second run, LF keeps the positions together -/
theorem lf_first_run (hT : IsText T) (hsa : IsSA T sa) {z : Nat} (hz : z ≤ T.length) (hno : ∀ i, 1 ≤ i → i < z → ¬ HeadAt T sa i) :
    ∀ i, i < z → lfAt T sa i = lfAt T sa 0 + i := by
  intro i
  induction i with
  | zero => intro _; rfl
  | succ i ih =>
    intro hi
    have hb : bwtAt T sa i = bwtAt T sa (i+1) := by
      by_contra hc
      exact hno (i+1) (by omega) hi ⟨by omega, Or.inr (by rw [Nat.add_sub_cancel]; exact hc)⟩
    rw [(lf_adj hT hsa (by omega) hb).1, ih (by omega)]
    omega

/-- **Locate of the empty pattern** on a sub-sampled CSA without validity information: as many values as there are positions, but one of
    them twice -/
theorem OK.locate_empty (h : I.OK T sa K) (ho : OpsOK O T sa K Good den Strong) (hn : 2 ≤ T.length) (hs : 1 ≤ I.s)
    (hi : O.getSampleData data0 = some none ∨ O.getSampleData data0 = some (some (pv T sa 0))) :
    ∃ l, (I.functorsWith O (I.phiForRange O)).locate [] = some l ∧ l.length = T.length ∧ l.head? = some (T.length - 2) ∧ ¬ l.Nodup := by
  have hT := h.nav.text
  have hsa := h.nav.isSA
  obtain ⟨y1, y2, y3⟩ := lf_zero hT hsa hn
  have ok := h.forwOK ho h.phiOK
  obtain ⟨r, e1, e2⟩ := ho.range 1 T.length (by omega) (Nat.le_refl _)
  have hloc : ∀ m, (I.rangePhi O I.phi).forwRange r (T.length - 2) = some m →
      (I.functorsWith O (I.phiForRange O)).locate [] = some ((T.length - 2) :: m) := by
    intro m hm
    have ht := h.toehold_zero ho hn hi
    have hr : I.phiForRange O ⟨1, I.n⟩ (T.length - 2) = some m := by
      unfold phiForRange
      simp only [h.nav.n, show 1 < T.length by omega, if_true, e1, Option.bind_eq_bind, Option.bind_some, hm]
    have hne : ¬ I.n = 0 := by rw [h.nav.n]; omega
    unfold Functors.locate
    simp only [List.reverse_nil, Functors.locateLoop, Option.bind_eq_bind, Option.bind_some]
    unfold functorsWith computeAllValues
    dsimp only
    unfold data0 at ht
    simp only [show 0 < I.n by omega, decide_true, Bool.not_true, Bool.false_eq_true, if_false, ht, RCSA.shrink, Nat.zero_add,
      Option.bind_eq_bind, Option.bind_some, hr]
    rfl
  by_cases hs2 : 2 ≤ I.s
  · obtain ⟨m, f1, f2, f3⟩ := forwRange_any ok h.phiLt (prev := T.length - 2) (Nat.le_refl _) (by omega) e2
    refine ⟨_, hloc m f1, by rw [List.length_cons, f2]; omega, rfl, ?_⟩
    intro hnd
    have hy := f3 (lfAt T sa 0 - 1) (by omega) (by rw [show 1 + (lfAt T sa 0 - 1) = lfAt T sa 0 by omega]; exact h.soon hn hs2)
    rw [show 1 + (lfAt T sa 0 - 1) = lfAt T sa 0 by omega, y2] at hy
    exact (List.nodup_cons.1 hnd).1 (List.mem_of_getElem? hy)
  · have hs1 : I.s = 1 := by omega
    obtain ⟨z, hz, hz1⟩ : ∃ z, (1 ≤ z ∧ HeadAt T sa z) ∧ ∀ i, i < z → ¬ (1 ≤ i ∧ HeadAt T sa i) := by
      classical
      have hex : ∃ z, 1 ≤ z ∧ HeadAt T sa z := by
        refine ⟨psiAt T sa 0, ?_, head_psi_zero hT hsa⟩
        by_contra hc
        have h1 := saAt_psiAt hsa (show 0 < T.length by omega)
        have h0 := sa_zero hT hsa
        rw [show psiAt T sa 0 = 0 by omega, h0, Nat.sub_add_cancel (by omega), Nat.mod_self] at h1
        omega
      exact ⟨Nat.find hex, Nat.find_spec hex, fun i hi => Nat.find_min hex hi⟩
    have hzn := hz.2.1
    have hlast := lf_first_run hT hsa (Nat.le_of_lt hzn) (fun i h1 h2 h3 => hz1 i h2 ⟨h1, h3⟩) (z - 1) (by omega)
    have hll := lfAt_lt hsa (show z - 1 < T.length by omega)
    rw [hs1] at ok
    obtain ⟨p, g⟩ := fold_one ok (h.phiFull hs1) (k := lfAt T sa 0) (h.all_kept hs1 hz.2) (by omega) r 1 T.length []
      (chain_of_id rfl r 1 _ e2) (Nat.le_refl _) (Nat.le_refl _) hz.1 hzn
      (fun i h1 h2 hk => hz1 i h2 ⟨h1, h.sampling.1 i hk⟩)
    rw [Nat.sub_self, Nat.zero_add, y2, List.nil_append] at g
    simp only [Option.bind_eq_bind, Option.pure_def] at g
    have hm : (I.rangePhi O I.phi).forwRange r (T.length - 2) =
        some (up sa (1 + lfAt T sa 0) (z - 1) ++ up sa z (T.length - z)) := by
      unfold RangePhi.forwRange
      rw [show (I.rangePhi O I.phi).samplingSize + 1 = 2 by rw [ok.rate]]
      simp only [Option.bind_eq_bind, Option.pure_def, g, Option.bind_some]
    have hup : (T.length - 2) :: (up sa (1 + lfAt T sa 0) (z - 1) ++ up sa z (T.length - z)) =
        up sa (lfAt T sa 0) z ++ up sa z (T.length - z) := by
      obtain ⟨w, rfl⟩ : ∃ w, z = w + 1 := ⟨z - 1, by omega⟩
      rw [up_succ, y2, Nat.add_comm 1, Nat.add_sub_cancel]; rfl
    refine ⟨_, hloc _ hm, ?_, rfl, ?_⟩
    · simp [up]; omega
    · rw [hup]
      intro hnd
      refine (List.nodup_append.1 hnd).2.2 (saAt sa (lfAt T sa 0 + (z - 1))) ?_ (saAt sa (lfAt T sa 0 + (z - 1))) ?_ rfl
      · exact List.mem_map.2 ⟨_, List.mem_range'_1.2 ⟨by omega, by omega⟩, rfl⟩
      · exact List.mem_map.2 ⟨_, List.mem_range'_1.2 ⟨by omega, by omega⟩, rfl⟩

end SrCSA
end Sri
