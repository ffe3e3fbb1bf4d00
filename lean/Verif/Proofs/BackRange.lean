import Verif.Proofs.Pieces
/-! # Reporting a range backwards from a sub-sampled index (phi.h:255-341, 561-661) -/
namespace Sri
set_option autoImplicit false

section
variable {T sa : List Nat} {kept : Nat → Prop} {s : Nat}

/-- suffix-array values of `[x, x+len)` from the last position to the first -/
def down (sa : List Nat) (x len : Nat) : List Nat := ((List.range' x len).map (saAt sa)).reverse

theorem down_zero (x : Nat) : down sa x 0 = [] := rfl

theorem down_add (x m k : Nat) : down sa x (m + k) = down sa (x + m) k ++ down sa x m := by
  rw [down, down, down, ← List.reverse_append, ← List.map_append]
  congr 2
  rw [List.range'_append_1]

theorem down_succ (x m : Nat) : down sa x (m + 1) = saAt sa (x + m) :: down sa x m := by
  rw [down_add]; rfl

/-- the positions `x .. x+len-1` have travelled `L` steps together to `a .. a+len-1` without meeting a kept tail before -/
def Trav (T sa : List Nat) (kept : Nat → Prop) (L x a len : Nat) : Prop :=
  ∀ j, j < len → lfIt T sa L (x + j) = a + j ∧ ∀ e, e < L → ¬ kept (lfIt T sa e (x + j))

/-- what phi of a sub-sampled index guarantees at `SA[i]` -/
def PhiOK (T sa : List Nat) (s : Nat) (kept : Nat → Prop) (phi : Nat → Option (Nat × Bool)) : Prop :=
  ∀ i, 1 ≤ i → i < T.length → ∃ v ok, phi (saAt sa i) = some (v, ok) ∧
    ((∀ e, e < s → ¬ kept (lfIt T sa e (i-1))) → v = saAt sa (i-1))

/-- a value phi flags as valid is right -/
def PhiValid (T sa : List Nat) (phi : Nat → Option (Nat × Bool)) : Prop :=
  ∀ i v, 1 ≤ i → i < T.length → phi (saAt sa i) = some (v, true) → v = saAt sa (i-1)

/-- what the functors of a sub-sampled backward index do -/
structure BackOK (F : RangePhi PhiRun) (T sa : List Nat) (s : Nat) (kept : Nat → Prop) : Prop where
  text : IsText T
  isSA : IsSA T sa
  seq : F.seqSize = T.length
  rate : F.samplingSize = s
  tail : ∀ y, kept y → TailAt T sa y
  noSample : ∀ r, r.isRunEnd = false → F.getSample r = some none
  sample : ∀ r, r.isRunEnd = true → r.rnk < nrun T sa →
    (kept (tl T sa r.rnk) ∧ F.getSample r = some (some (pv T sa (tl T sa r.rnk)))) ∨
    (¬ kept (tl T sa r.rnk) ∧ F.getSample r = some none)
  split : ∀ r : PhiRun, r.start < r.stop → r.stop ≤ T.length → ∃ l, F.splitRun r = some l ∧ PiecesRev T sa r.start r.stop l.reverse
  nav : ∀ (r : PhiRun) (k : Nat), k < nrun T sa → r.c = sy T sa k → hd T sa k ≤ r.start → r.start < r.stop →
    r.stop ≤ tl T sa k + 1 → ∃ q, F.navigate r = some q ∧ q.start = lfAt T sa r.start ∧
      q.stop = lfAt T sa r.start + (r.stop - r.start)
  update : F.updateRun = SrIndex.updateRun
  empty : F.isRunEmpty = fun r => !decide (r.start < r.stop)
  phi : PhiOK T sa s kept F.phi

theorem updateRun_eq (r : PhiRun) (h : r.start < r.stop) :
    SrIndex.updateRun r = some { r with stop := r.stop - 1, isRunEnd := false } := by
  simp [SrIndex.updateRun, csub, show 1 ≤ r.stop by omega]

/-- the sample of the tail reached after `L` steps gives the value at the start -/
theorem sample_value (hsa : IsSA T sa) {x y L : Nat} (hx : x < T.length) (h : lfIt T sa L x = y) :
    (pv T sa y + 1 + L) % T.length = saAt sa x := by
  have hy : y < T.length := by rw [← h]; exact lfIt_lt hsa L hx
  have h1 := sa_lfIt_mod hsa hx L
  rw [h] at h1
  have h2 := saAt_lt hsa hy
  rw [pv, Nat.add_assoc, Nat.mod_add_mod, show saAt sa y + T.length - 1 + (1 + L) = saAt sa y + L + T.length by omega,
    Nat.add_mod_right, h1]

/-- a kept tail inside a piece is its last position, and the piece then ends its run -/
theorem kept_piece {F : RangePhi PhiRun} (h : BackOK F T sa s kept) {r : PhiRun} {k y : Nat} (hr : PieceOK T sa r k) (hy : kept y)
    (h1 : r.start ≤ y) (h2 : y < r.stop) : y = tl T sa k ∧ r.isRunEnd = true ∧ y + 1 = r.stop := by
  obtain ⟨m, hm, rfl⟩ := tailAt_iff.1 (h.tail y hy)
  have : m = k := by
    have hlo := hr.lo
    have hhi := hr.hi
    exact run_unique hm hr.lt (hd_le_tl hm) (Nat.le_refl _) (by omega) (by omega)
  subst this
  have hhi := hr.hi
  refine ⟨rfl, ?_, by omega⟩
  rw [hr.isEnd]; simp; omega

theorem trav_step {F : RangePhi PhiRun} (h : BackOK F T sa s kept) {L x a len p m k : Nat} (ht : Trav T sa kept L x a len)
    (hk : k < nrun T sa) (h1 : hd T sa k ≤ p) (h2 : p + m ≤ tl T sa k + 1) (hap : a ≤ p) (hpm : p + m ≤ a + len)
    (hno : ∀ y, p ≤ y → y < p + m → ¬ kept y) : Trav T sa kept (L+1) (x + (p - a)) (lfAt T sa p) m := by
  intro j hj
  obtain ⟨e1, e2⟩ := ht (p - a + j) (by omega)
  rw [← Nat.add_assoc] at e1 e2
  have e3 : a + (p - a + j) = p + j := by omega
  rw [e3] at e1
  refine ⟨?_, ?_⟩
  · rw [lfIt_succ, e1, lf_block h.text h.isSA hk h1 j (by omega)]
  · intro e he
    rcases Nat.lt_or_eq_of_le (Nat.le_of_lt_succ he) with hlt | rfl
    · exact e2 e hlt
    · rw [e1]; exact hno _ (by omega) (by omega)

section plain
variable {F : RangePhi PhiRun}

/-- specification of `compute` at level `L` -/
def ComputeSpec (T sa : List Nat) (kept : Nat → Prop) (L : Nat) (f : PhiRun → Nat → Option (List Nat × Nat)) : Prop :=
  ∀ (r : PhiRun) (x : Nat), r.start < r.stop → x + (r.stop - r.start) < T.length →
    Trav T sa kept L x r.start (r.stop - r.start) →
    f r (saAt sa (x + (r.stop - r.start))) = some (down sa x (r.stop - r.start), saAt sa x)

theorem phiWhile_spec (h : BackOK F T sa s kept) (len : Nat) : ∀ (fuel : Nat) (r : PhiRun) (x _a : Nat), len < fuel →
    r.stop - r.start = len + 1 → r.start < r.stop → x + (len + 1) < T.length →
    (∀ j, j < len + 1 → ∀ e, e < s → ¬ kept (lfIt T sa e (x + j))) →
    F.phiWhile fuel r (saAt sa (x + (len + 1))) = some (down sa x (len + 1), saAt sa x) := by
  induction len with
  | zero =>
    intro fuel r x a hf hl hne hx hno
    obtain ⟨fuel, rfl⟩ : ∃ g, fuel = g + 1 := ⟨fuel - 1, by omega⟩
    obtain ⟨v, ok, e1, e3⟩ := h.phi (x + 1) (by omega) hx
    rw [RangePhi.phiWhile, e1]
    simp only [Option.bind_eq_bind, Option.bind_some]
    rw [h.update, updateRun_eq r hne, h.empty]
    simp only [Option.bind_some, show ¬ r.start < r.stop - 1 by omega, decide_false, Bool.not_false, if_true]
    have := e3 (by intro e he; exact hno 0 (by omega) e he)
    rw [this]; rfl
  | succ len ih =>
    intro fuel r x a hf hl hne hx hno
    obtain ⟨fuel, rfl⟩ : ∃ g, fuel = g + 1 := ⟨fuel - 1, by omega⟩
    obtain ⟨v, ok, e1, e3⟩ := h.phi (x + (len + 1 + 1)) (by omega) hx
    rw [RangePhi.phiWhile, e1]
    simp only [Option.bind_eq_bind, Option.bind_some]
    rw [h.update, updateRun_eq r hne, h.empty]
    simp only [Option.bind_some, show r.start < r.stop - 1 by omega, decide_true, Bool.not_true, Bool.false_eq_true, if_false]
    have hv := e3 (by intro e he; exact hno (len + 1) (by omega) e he)
    rw [show x + (len + 1 + 1) - 1 = x + (len + 1) by omega] at hv
    subst hv
    rw [ih fuel { r with stop := r.stop - 1, isRunEnd := false } x a (by omega) (by dsimp only; omega) (by dsimp only; omega) (by omega)
      (fun j hj => hno j (by omega))]
    simp only [Option.bind_some, down_succ x (len + 1)]; rfl

theorem backRuns_spec (h : BackOK F T sa s kept) {L : Nat} {next : PhiRun → Nat → Option (List Nat × Nat)}
    (hnext : ComputeSpec T sa kept (L+1) next) (runs : List PhiRun) :
    ∀ (a b x : Nat), PiecesRev T sa a b runs → x + (b - a) < T.length → Trav T sa kept L x a (b - a) →
      F.backRuns L next runs (saAt sa (x + (b - a))) = some (down sa x (b - a), saAt sa x) := by
  induction runs with
  | nil =>
    intro a b x hp hx ht
    have : a = b := hp
    subst this
    simp [RangePhi.backRuns, down]
  | cons r rest ih =>
    rintro a b x ⟨rfl, ⟨k, hk⟩, hp⟩ hx ht
    have hle := hp.le
    have hne := hk.ne
    have hlo := hk.lo
    have hhi := hk.hi
    have hklt := hk.lt
    have hrest := ih a r.start x hp (by omega) (fun j hj => ht j (by omega))
    have hxp : x + (r.start - a) + (r.stop - r.start) = x + (r.stop - a) := by omega
    rw [RangePhi.backRuns]
    -- either the last position is sampled, or no position of the piece is a kept tail
    have hcase : (F.getSample r = some (some (pv T sa (r.stop - 1))) ∧ ∀ y, r.start ≤ y → y < r.stop - 1 → ¬ kept y) ∨
        (F.getSample r = some none ∧ ∀ y, r.start ≤ y → y < r.stop → ¬ kept y) := by
      cases hend : r.isRunEnd with
      | false =>
        right
        refine ⟨h.noSample r hend, fun y h1 h2 hy => ?_⟩
        have := (kept_piece h hk hy h1 h2).2.1
        rw [hend] at this; cases this
      | true =>
        have hst : r.stop = tl T sa k + 1 := by
          have := hk.isEnd; rw [hend] at this; exact of_decide_eq_true this.symm
        have hr := hk.rnk
        rcases h.sample r hend (by rw [hr]; exact hklt) with ⟨g1, g2⟩ | ⟨g1, g2⟩
        · left
          rw [hr] at g2
          refine ⟨by rw [g2, show r.stop - 1 = tl T sa k by omega], fun y h1 h2 hy => ?_⟩
          have := (kept_piece h hk hy h1 (by omega)).2.2
          omega
        · right
          rw [hr] at g1
          refine ⟨g2, fun y h1 h2 hy => ?_⟩
          have := (kept_piece h hk hy h1 h2).1
          subst this; exact g1 hy
    rcases hcase with ⟨hs, hno⟩ | ⟨hs, hno⟩
    · have hval : (pv T sa (r.stop - 1) + 1 + L) % T.length = saAt sa (x + (r.stop - a) - 1) := by
        refine sample_value h.isSA (by omega) ?_
        have := (ht (r.stop - a - 1) (by omega)).1
        rw [show x + (r.stop - a) - 1 = x + (r.stop - a - 1) by omega, this]; omega
      simp only [hs, Option.bind_eq_bind, Option.bind_some, cmod, h.seq, show T.length ≠ 0 by omega, if_false, h.update,
        updateRun_eq r hne, hval, Option.pure_def]
      by_cases hem : r.start < r.stop - 1
      · obtain ⟨q, q1, q2, q3⟩ := h.nav { r with stop := r.stop - 1, isRunEnd := false } k hklt hk.c hlo hem (by dsimp only; omega)
        dsimp only at q2 q3
        simp only [h.empty, hem, decide_true, Bool.not_true, Bool.false_eq_true, if_false, q1, Option.bind_some]
        have hlen : q.stop - q.start = r.stop - 1 - r.start := by omega
        have htr := trav_step h ht hklt hlo (m := r.stop - 1 - r.start) (by omega) hle (by omega) (fun y h1 h2 => hno y h1 (by omega))
        have := hnext q (x + (r.start - a)) (by omega) (by omega) (by rw [q2, hlen, ← q2] at *; rw [q2]; exact htr)
        rw [hlen, show x + (r.start - a) + (r.stop - 1 - r.start) = x + (r.stop - a) - 1 by omega] at this
        rw [this]
        simp only [Option.bind_some]
        rw [hrest]
        simp only [Option.bind_some]
        congr 2
        rw [show r.stop - a = (r.start - a) + ((r.stop - 1 - r.start) + 1) by omega, down_add, down_succ]
        rw [show x + (r.start - a + (r.stop - 1 - r.start + 1)) - 1 = x + (r.start - a) + (r.stop - 1 - r.start) by omega]
        simp
      · simp only [h.empty, hem, decide_false, Bool.not_false, if_true, Option.bind_some]
        rw [show x + (r.stop - a) - 1 = x + (r.start - a) by omega, hrest]
        simp only [Option.bind_some]
        congr 2
        rw [show r.stop - a = (r.start - a) + 1 by omega, down_succ]
        simp
    · obtain ⟨q, q1, q2, q3⟩ := h.nav r k hklt hk.c hlo hne hhi
      simp only [hs, Option.bind_eq_bind, Option.bind_some, Option.pure_def, h.empty, hne, decide_true, Bool.not_true,
        Bool.false_eq_true, if_false, q1]
      have hlen : q.stop - q.start = r.stop - r.start := by omega
      have htr := trav_step h ht hklt hlo (m := r.stop - r.start) (by omega) hle (by omega) (fun y h1 h2 => hno y h1 (by omega))
      have := hnext q (x + (r.start - a)) (by omega) (by omega) (by rw [hlen, q2]; exact htr)
      rw [hlen, hxp] at this
      rw [this]
      simp only [Option.bind_some]
      rw [hrest]
      simp only [Option.bind_some]
      congr 2
      rw [show r.stop - a = (r.start - a) + (r.stop - r.start) by omega, down_add]
      simp

theorem backCompute_spec (h : BackOK F T sa s kept) (depth : Nat) : ∀ L, s + 1 ≤ L + depth → 1 ≤ depth →
    ComputeSpec T sa kept L (F.backCompute depth L) := by
  induction depth with
  | zero => intro L _ h1; omega
  | succ depth ih =>
    intro L hL _ r x hne hx ht
    rw [RangePhi.backCompute]
    by_cases hs : F.samplingSize ≤ L
    · rw [if_pos hs]
      have := phiWhile_spec h (r.stop - r.start - 1) F.seqSize r x 0 (by rw [h.seq]; omega) (by omega) hne (by omega)
        (fun j hj e he => (ht j (by omega)).2 e (by rw [h.rate] at hs; omega))
      rw [show r.stop - r.start - 1 + 1 = r.stop - r.start by omega] at this
      exact this
    · rw [if_neg hs]
      rw [h.rate] at hs
      have hst : r.stop ≤ T.length := by
        have h1 := (ht (r.stop - r.start - 1) (by omega)).1
        have h2 := lfIt_lt (T := T) h.isSA L (i := x + (r.stop - r.start - 1)) (by omega)
        omega
      obtain ⟨l, e1, e2⟩ := h.split r hne hst
      simp only [e1, Option.bind_eq_bind, Option.bind_some]
      exact backRuns_spec h (ih (L+1) (by omega) (by omega)) l.reverse r.start r.stop x e2 hx ht

theorem trav_zero (a len : Nat) : Trav T sa kept 0 a a len := fun j _ => ⟨rfl, fun e he => by omega⟩

theorem backRange_spec (h : BackOK F T sa s kept) {l : List PhiRun} {a b : Nat} (hab : a < b) (hb : b < T.length)
    (hp : PiecesRev T sa a b l.reverse) : F.backRange l (saAt sa b) = some (down sa a (b - a)) := by
  unfold RangePhi.backRange
  have := backRuns_spec h (backCompute_spec h (F.samplingSize + 1) 1 (by rw [h.rate]; omega) (by omega)) l.reverse a b a hp (by omega)
    (trav_zero a (b - a))
  rw [show a + (b - a) = b by omega] at this
  rw [this]; rfl

end plain
end
end Sri
