import Verif.Model.SrCSA
import Verif.Proofs.PhiForward
import Verif.Proofs.IndexBase
/-! # Reporting a range forwards from a sub-sampled index (phi.h:379-443) -/
namespace Sri
set_option autoImplicit false

section
variable {T sa : List Nat} {kept : Nat → Prop} {s : Nat} {Good : FRun → Prop}

/-- suffix-array values of `[x, x+len)` -/
def up (sa : List Nat) (x len : Nat) : List Nat := (List.range' x len).map (saAt sa)

theorem up_zero (x : Nat) : up sa x 0 = [] := rfl

theorem up_add (x m k : Nat) : up sa x (m + k) = up sa x m ++ up sa (x + m) k := by
  rw [up, up, up, ← List.map_append, List.range'_append_1]

theorem up_succ (x m : Nat) : up sa x (m + 1) = saAt sa x :: up sa (x + 1) m := by
  rw [Nat.add_comm m 1, up_add]; rfl

/-- the positions `x .. x+len-1` have travelled `t` psi steps together to `a .. a+len-1` without meeting a kept head before -/
def TravF (T sa : List Nat) (kept : Nat → Prop) (t x a len : Nat) : Prop :=
  ∀ j, j < len → psiIt T sa t (x + j) = a + j ∧ ∀ e, e < t → ¬ kept (psiIt T sa e (x + j))

/-- the runs of a list are the images under `f` of consecutive blocks of `[a, b)` -/
def Images (n : Nat) (f : Nat → Nat) (Good : FRun → Prop) : Nat → Nat → List FRun → Prop
  | a, b, [] => a = b
  | a, b, r :: rs => Good r ∧ r.start < r.stop ∧ r.stop ≤ n ∧ a + (r.stop - r.start) ≤ b ∧
      (∀ j, j < r.stop - r.start → f (a + j) = r.start + j) ∧ Images n f Good (a + (r.stop - r.start)) b rs

/-- what phi of a sub-sampled index guarantees at `SA[i]` -/
def PhiOKF (T sa : List Nat) (s : Nat) (kept : Nat → Prop) (phi : Nat → Option (Nat × Bool)) : Prop :=
  ∀ i, i < T.length → ∃ v ok, phi (saAt sa i) = some (v, ok) ∧
    (i + 1 < T.length → (∀ e, e < s → ¬ kept (psiIt T sa e (i+1))) → v = saAt sa (i+1))

/-- a value phi flags as valid is right -/
def PhiValidF (T sa : List Nat) (phi : Nat → Option (Nat × Bool)) : Prop :=
  ∀ i v, i + 1 < T.length → phi (saAt sa i) = some (v, true) → v = saAt sa (i+1)

/-- what the functors of a sub-sampled forward index do -/
structure ForwOK (F : RangePhi FRun) (T sa : List Nat) (s : Nat) (kept : Nat → Prop) (Good : FRun → Prop) : Prop where
  text : IsText T
  isSA : IsSA T sa
  seq : F.seqSize = T.length
  rate : F.samplingSize = s
  update : F.updateRun = SrCSA.updateRun
  empty : F.isRunEmpty = fun r => !decide (r.start < r.stop)
  last : ∀ z, z < T.length → saAt sa z = 0 → kept z
  sampled : ∀ r, Good r → r.start < r.stop → r.stop ≤ T.length → kept r.start → F.getSample r = some (some (pv T sa r.start))
  noSample : ∀ r, Good r → r.start < r.stop → r.stop ≤ T.length → ¬ kept r.start → F.getSample r = some none
  inside : ∀ r, Good r → ∀ y, r.start < y → y < r.stop → ¬ kept y
  goodUp : ∀ r, Good r → r.start + 1 < r.stop → Good { r with start := r.start + 1, isRunStart := false }
  split : ∀ r : FRun, r.start < r.stop → r.stop ≤ T.length →
    ∃ l, F.splitRun r = some l ∧ Images T.length (psiAt T sa) Good r.start r.stop l
  phi : PhiOKF T sa s kept F.phi

/-- the sample of the head reached after `t` psi steps gives the value at the start -/
theorem sample_value_forw (hsa : IsSA T sa) {x y t : Nat} (hx : x < T.length) (ht : t ≤ T.length) (h : psiIt T sa t x = y) :
    (pv T sa y + 1 + T.length - t) % T.length = saAt sa x := by
  have h1 := sa_psiIt_mod hsa hx t
  rw [h] at h1
  have hy : y < T.length := by rw [← h]; exact psiIt_lt hsa t hx
  have h3 := saAt_lt hsa hx
  have h4 := saAt_lt hsa hy
  by_cases h0 : saAt sa y = 0
  · rw [pv_of_zero (by omega) h0]
    by_cases hlt : saAt sa x + t < T.length
    · rw [Nat.mod_eq_of_lt hlt] at h1
      have ht0 : t = 0 := by omega
      subst ht0
      rw [show T.length - 1 + 1 + T.length - 0 = 0 + T.length + T.length by omega, Nat.add_mod_right, Nat.add_mod_right]
      rw [Nat.mod_eq_of_lt (by omega)]; omega
    · by_cases h2 : saAt sa x + t < T.length + T.length
      · rw [show saAt sa x + t = saAt sa x + t - T.length + T.length by omega, Nat.add_mod_right, Nat.mod_eq_of_lt (by omega)] at h1
        rw [show T.length - 1 + 1 + T.length - t = saAt sa x + T.length by omega, Nat.add_mod_right, Nat.mod_eq_of_lt h3]
      · omega
  · rw [pv_of_pos hsa hy (by omega), show saAt sa y - 1 + 1 = saAt sa y by omega]
    by_cases hlt : saAt sa x + t < T.length
    · rw [Nat.mod_eq_of_lt hlt] at h1
      rw [h1, show saAt sa x + t + T.length - t = saAt sa x + T.length by omega, Nat.add_mod_right, Nat.mod_eq_of_lt h3]
    · have : saAt sa x + t < T.length + T.length := by omega
      rw [show saAt sa x + t = saAt sa x + t - T.length + T.length by omega, Nat.add_mod_right, Nat.mod_eq_of_lt (by omega)] at h1
      rw [h1, show saAt sa x + t - T.length + T.length - t = saAt sa x by omega, Nat.mod_eq_of_lt h3]

section plain
variable {F : RangePhi FRun}

/-- every position meets a kept head within `n` psi steps -/
theorem ForwOK.meets (h : ForwOK F T sa s kept Good) {x : Nat} (hx : x < T.length) : ∃ e, e < T.length ∧ kept (psiIt T sa e x) := by
  have hlt := saAt_lt h.isSA hx
  by_cases h0 : saAt sa x = 0
  · exact ⟨0, by omega, h.last _ hx h0⟩
  · refine ⟨T.length - saAt sa x, by omega, h.last _ (psiIt_lt h.isSA _ hx) ?_⟩
    rw [sa_psiIt_mod h.isSA hx, show saAt sa x + (T.length - saAt sa x) = T.length by omega, Nat.mod_self]

theorem ForwOK.trav_lt (h : ForwOK F T sa s kept Good) {t x a len : Nat} (ht : TravF T sa kept t x a len) (hlen : 0 < len)
    (hx : x < T.length) : t < T.length := by
  obtain ⟨e, he, hk⟩ := h.meets hx
  by_contra hc
  exact (ht 0 hlen).2 e (by omega) hk

theorem ForwOK.trav_lt' (h : ForwOK F T sa s kept Good) {t x a len : Nat} (ht : TravF T sa kept t x a len) (hx : x + len ≤ T.length) :
    a + len ≤ T.length ∨ len = 0 := by
  by_cases h0 : len = 0
  · right; exact h0
  · left
    have h1 := (ht (len - 1) (by omega)).1
    have h2 := psiIt_lt (T := T) h.isSA t (show x + (len - 1) < T.length by omega)
    omega

/-- what holds of a run reached after `t` steps from the positions that start at `x` -/
def AtF (T sa : List Nat) (kept : Nat → Prop) (Good : FRun → Prop) (t : Nat) (r : FRun) (x : Nat) : Prop :=
  Good r ∧ r.start < r.stop ∧ r.stop ≤ T.length ∧ TravF T sa kept t x r.start (r.stop - r.start)

/-- runs whose positions are consecutive from `x` to `y` -/
def Chain (P : FRun → Nat → Prop) : Nat → Nat → List FRun → Prop
  | x, y, [] => x = y
  | x, y, r :: rs => P r x ∧ x + (r.stop - r.start) ≤ y ∧ Chain P (x + (r.stop - r.start)) y rs

theorem chain_of_images {t x a : Nat} : ∀ (l : List FRun) (p b : Nat), a ≤ p → p ≤ b →
    TravF T sa kept t x a (b - a) → (∀ y, p ≤ y → y < b → ¬ kept y) → Images T.length (psiAt T sa) Good p b l →
    Chain (AtF T sa kept Good (t+1)) (x + (p - a)) (x + (b - a)) l := by
  intro l
  induction l with
  | nil =>
    intro p b hap hpb _ _ hi
    have : p = b := hi
    subst this; rfl
  | cons r rs ih =>
    rintro p b hap hpb ht hno ⟨h1, h2, h3, h4, h5, h6⟩
    refine ⟨⟨h1, h2, h3, ?_⟩, by omega, ?_⟩
    · intro j hj
      obtain ⟨e1, e2⟩ := ht (p - a + j) (by omega)
      rw [← Nat.add_assoc] at e1 e2
      rw [show a + (p - a + j) = p + j by omega] at e1
      refine ⟨by rw [psiIt_succ, e1, h5 j hj], ?_⟩
      intro e he
      rcases Nat.lt_or_eq_of_le (Nat.le_of_lt_succ he) with hlt | rfl
      · exact e2 e hlt
      · rw [e1]; exact hno _ (by omega) (by omega)
    · have := ih (p + (r.stop - r.start)) b (by omega) h4 ht (fun y h1 h2 => hno y (by omega) h2) h6
      rwa [show x + (p + (r.stop - r.start) - a) = x + (p - a) + (r.stop - r.start) by omega] at this

theorem chain_of_id {n : Nat} (hn : n = T.length) : ∀ (l : List FRun) (p b : Nat), Images n id Good p b l →
    Chain (AtF T sa kept Good 0) p b l := by
  subst hn
  intro l
  induction l with
  | nil => intro p b hi; exact hi
  | cons r rs ih =>
    rintro p b ⟨h1, h2, h3, h4, h5, h6⟩
    refine ⟨⟨h1, h2, h3, ?_⟩, h4, ih _ _ h6⟩
    intro j hj
    exact ⟨h5 j hj, fun e he => by omega⟩

/-- specification of `compute` after `t` steps -/
def ComputeSpecF (T sa : List Nat) (kept : Nat → Prop) (Good : FRun → Prop) (t : Nat) (f : FRun → Nat → Option (List Nat × Nat)) : Prop :=
  ∀ (r : FRun) (x : Nat), AtF T sa kept Good t r x → 1 ≤ x → x + (r.stop - r.start) ≤ T.length →
    f r (saAt sa (x - 1)) = some (up sa x (r.stop - r.start), saAt sa (x + (r.stop - r.start) - 1))

theorem fold_chain {t : Nat} {f : FRun → Nat → Option (List Nat × Nat)} (hf : ComputeSpecF T sa kept Good t f) :
    ∀ (l : List FRun) (x y : Nat) (acc : List Nat), Chain (AtF T sa kept Good t) x y l → 1 ≤ x → y ≤ T.length →
      l.foldlM (fun (acc : List Nat × Nat) r => do
          let (l, p) ← f r acc.2
          return (acc.1 ++ l, p)) (acc, saAt sa (x - 1)) = some (acc ++ up sa x (y - x), saAt sa (y - 1)) := by
  intro l
  induction l with
  | nil =>
    intro x y acc hc h1 hy
    have : x = y := hc
    subst this
    simp [up_zero]
  | cons r rs ih =>
    rintro x y acc ⟨hr, hle, hc⟩ h1 hy
    have h2 := hr.2.1
    have e := hf r x hr h1 (by omega)
    have e2 := ih (x + (r.stop - r.start)) y (acc ++ up sa x (r.stop - r.start)) hc (by omega) hy
    simp only [List.foldlM_cons, e, Option.bind_eq_bind, Option.bind_some, Option.pure_def]
    simp only [Option.bind_eq_bind, Option.pure_def] at e2
    rw [e2, List.append_assoc, show y - x = (r.stop - r.start) + (y - (x + (r.stop - r.start))) by omega, up_add]

theorem phiWhile_forw (h : ForwOK F T sa s kept Good) (len : Nat) : ∀ (fuel : Nat) (r : FRun) (x : Nat), len < fuel →
    r.stop - r.start = len + 1 → r.start < r.stop → 1 ≤ x → x + (len + 1) ≤ T.length →
    (∀ j, j < len + 1 → ∀ e, e < s → ¬ kept (psiIt T sa e (x + j))) →
    F.phiWhile fuel r (saAt sa (x - 1)) = some (up sa x (len + 1), saAt sa (x + len)) := by
  induction len with
  | zero =>
    intro fuel r x hf hl hne hx hxn hno
    obtain ⟨fuel, rfl⟩ : ∃ g, fuel = g + 1 := ⟨fuel - 1, by omega⟩
    obtain ⟨v, ok, e1, e3⟩ := h.phi (x - 1) (by omega)
    rw [Nat.sub_add_cancel hx] at e3
    have := e3 (by omega) (hno 0 (by omega))
    subst this
    rw [RangePhi.phiWhile, e1]
    simp only [Option.bind_eq_bind, Option.bind_some]
    rw [h.update, h.empty]
    simp only [SrCSA.updateRun, Option.bind_some, show ¬ r.start + 1 < r.stop by omega, decide_false, Bool.not_false, if_true]
    rfl
  | succ len ih =>
    intro fuel r x hf hl hne hx hxn hno
    obtain ⟨fuel, rfl⟩ : ∃ g, fuel = g + 1 := ⟨fuel - 1, by omega⟩
    obtain ⟨v, ok, e1, e3⟩ := h.phi (x - 1) (by omega)
    rw [Nat.sub_add_cancel hx] at e3
    have := e3 (by omega) (hno 0 (by omega))
    subst this
    have e := ih fuel { r with start := r.start + 1, isRunStart := false } (x + 1) (by omega) (by dsimp only; omega)
      (by dsimp only; omega) (by omega) (by omega)
      (fun j hj e he => by rw [show x + 1 + j = x + (j + 1) by omega]; exact hno (j+1) (by omega) e he)
    rw [Nat.add_sub_cancel, show x + 1 + len = x + (len + 1) by omega] at e
    rw [RangePhi.phiWhile, e1]
    simp only [Option.bind_eq_bind, Option.bind_some]
    rw [h.update, h.empty]
    simp only [SrCSA.updateRun, Option.bind_some, show r.start + 1 < r.stop by omega, decide_true, Bool.not_true, Bool.false_eq_true,
      if_false, e, up_succ x (len + 1)]
    rfl

theorem forwCompute_spec (h : ForwOK F T sa s kept Good) (depth : Nat) : ∀ t, s + 1 ≤ t + depth → 1 ≤ depth →
    ComputeSpecF T sa kept Good t (F.forwCompute depth (t + 1)) := by
  induction depth with
  | zero => intro t _ h1; omega
  | succ depth ih =>
    rintro t ht1 - r x ⟨hg, hne, hst, ht⟩ hx hxn
    rw [RangePhi.forwCompute]
    by_cases hs : F.samplingSize < t + 1
    · rw [if_pos hs]
      have := phiWhile_forw h (r.stop - r.start - 1) F.seqSize r x (by rw [h.seq]; omega) (by omega) hne hx (by omega)
        (fun j hj e he => (ht j (by omega)).2 e (by rw [h.rate] at hs; omega))
      rw [show r.stop - r.start - 1 + 1 = r.stop - r.start by omega] at this
      rw [this, show x + (r.stop - r.start - 1) = x + (r.stop - r.start) - 1 by omega]
    · rw [if_neg hs]
      rw [h.rate] at hs
      have hnext := ih (t + 1) (by omega) (by omega)
      generalize F.forwCompute depth (t + 1 + 1) = f at hnext ⊢
      have htn := h.trav_lt ht (by omega) (by omega)
      by_cases hk : kept r.start
      · have hval := sample_value_forw h.isSA (x := x) (by omega) (Nat.le_of_lt htn) (ht 0 (by omega)).1
        simp only [Nat.add_zero] at hval
        obtain ⟨z, hc, hz⟩ : ∃ z, csub (pv T sa r.start + 1 + T.length) (t + 1) = some z ∧ z + 1 = pv T sa r.start + 1 + T.length - t :=
          ⟨_, by rw [csub, if_pos (by omega)], by omega⟩
        rw [← hz] at hval
        simp only [h.sampled r hg hne hst hk, Option.bind_eq_bind, Option.bind_some, h.seq, hc, cmod, show T.length ≠ 0 by omega,
          if_false, hval,
          h.update, SrCSA.updateRun, Option.pure_def, h.empty]
        by_cases hem : r.start + 1 < r.stop
        · obtain ⟨l, e1, e2⟩ := h.split { r with start := r.start + 1, isRunStart := false } hem hst
          dsimp only at e2
          have hch := chain_of_images (t := t) (x := x) (a := r.start) l (r.start + 1) r.stop (by omega) (by omega) ht
            (fun y h1 h2 => h.inside r hg y (by omega) h2) e2
          have := fold_chain hnext l _ _ [] hch (by omega) (by omega)
          rw [show x + (r.start + 1 - r.start) = x + 1 by omega, Nat.add_sub_cancel] at this
          simp only [Option.bind_eq_bind, Option.pure_def] at this
          simp only [hem, decide_true, Bool.not_true, Bool.false_eq_true, if_false, e1, Option.bind_some, this]
          rw [show r.stop - r.start = (r.stop - r.start - 1) + 1 by omega, up_succ,
            show x + (r.stop - r.start - 1 + 1) - (x + 1) = r.stop - r.start - 1 by omega]
          simp
        · simp only [hem, decide_false, Bool.not_false, if_true]
          rw [show r.stop - r.start = 1 by omega]
          rfl
      · obtain ⟨l, e1, e2⟩ := h.split r hne hst
        have hch := chain_of_images (t := t) (x := x) (a := r.start) l r.start r.stop (by omega) (by omega) ht
          (fun y h1 h2 hy => by
            rcases Nat.lt_or_eq_of_le h1 with hlt | rfl
            · exact h.inside r hg y hlt h2 hy
            · exact hk hy) e2
        have := fold_chain hnext l _ _ [] hch (by omega) (by omega)
        rw [Nat.sub_self] at this
        simp only [Nat.add_zero, Option.bind_eq_bind, Option.pure_def] at this
        simp only [h.noSample r hg hne hst hk, Option.bind_eq_bind, Option.bind_some, Option.pure_def, h.empty, hne, decide_true,
          Bool.not_true, Bool.false_eq_true, if_false, e1, this]
        rw [show x + (r.stop - r.start) - x = r.stop - r.start by omega]
        simp

theorem forwRange_spec (h : ForwOK F T sa s kept Good) {l : List FRun} {a b : Nat} (ha : 1 ≤ a) (hb : b ≤ T.length)
    (hp : Images T.length id Good a b l) : F.forwRange l (saAt sa (a - 1)) = some (up sa a (b - a)) := by
  unfold RangePhi.forwRange
  have := fold_chain (forwCompute_spec h (F.samplingSize + 1) 0 (by rw [h.rate]; omega) (by omega)) l a b [] (chain_of_id rfl l a b hp) ha hb
  simp only [Option.bind_eq_bind, Option.pure_def, Nat.zero_add] at this
  simp only [Option.bind_eq_bind, Option.pure_def, this, Option.bind_some]
  simp

end plain
end
end Sri
