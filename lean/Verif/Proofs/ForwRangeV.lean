import Verif.Proofs.ForwRange
/-! # Reporting a range forwards with validity marks (phi.h:663-740) -/
namespace Sri
set_option autoImplicit false

section
variable {T sa : List Nat} {kept : Nat → Prop} {s : Nat} {Good : FRun → Prop} {F : RangePhi FRun}

/-- the pending value for position `x`: right when it is flagged valid, and right when no kept head is met within `s` steps -/
def PendF (T sa : List Nat) (s : Nat) (kept : Nat → Prop) (x v : Nat) (ok : Bool) : Prop :=
  x < T.length → (ok = true → v = saAt sa x) ∧ ((∀ e, e < s → ¬ kept (psiIt T sa e x)) → v = saAt sa x)

theorem pendF_phi (h : PhiOKF T sa s kept F.phi) (hv : PhiValidF T sa F.phi) {i : Nat} (hi : i < T.length) :
    ∃ v ok, F.phi (saAt sa i) = some (v, ok) ∧ PendF T sa s kept (i+1) v ok := by
  obtain ⟨v, ok, e1, e2⟩ := h i hi
  exact ⟨v, ok, e1, fun hl => ⟨fun hok => hv i v hl (by rw [e1, hok]), e2 hl⟩⟩

theorem pendF_of_eq {x v : Nat} {ok : Bool} (h : v = saAt sa x) : PendF T sa s kept x v ok := fun _ => ⟨fun _ => h, fun _ => h⟩

theorem reportValid_forw (h : ForwOK F T sa s kept Good) (hv : PhiValidF T sa F.phi) (len : Nat) :
    ∀ (fuel : Nat) (r : FRun) (x v : Nat) (ok : Bool), len ≤ fuel → r.start + len = r.stop → x + len ≤ T.length →
    (0 < len → Good r) → PendF T sa s kept x v ok →
    ∃ m r' v' ok', m ≤ len ∧ F.reportValid fuel r v ok = some (up sa x m, r', v', ok') ∧
      r'.start = r.start + m ∧ r'.stop = r.stop ∧ (m = 0 → r' = r) ∧ (m < len → Good r') ∧
      (m = len ∨ ok' = false) ∧ (0 < len → ok = true → 0 < m) ∧ PendF T sa s kept (x + m) v' ok' := by
  induction len with
  | zero =>
    intro fuel r x v ok hf hl hxn hg hp
    refine ⟨0, r, v, ok, Nat.le_refl _, ?_, rfl, rfl, fun _ => rfl, by omega, Or.inl rfl, by omega, hp⟩
    cases fuel <;> simp [RangePhi.reportValid, h.empty, show ¬ r.start < r.stop by omega, up]
  | succ len ih =>
    intro fuel r x v ok hf hl hxn hg hp
    cases ok with
    | false =>
      refine ⟨0, r, v, false, by omega, ?_, rfl, rfl, fun _ => rfl, hg, Or.inr rfl, by simp, hp⟩
      cases fuel <;> simp [RangePhi.reportValid, up]
    | true =>
      obtain ⟨fuel, rfl⟩ : ∃ g, fuel = g + 1 := ⟨fuel - 1, by omega⟩
      have hve := (hp (by omega)).1 rfl
      subst hve
      obtain ⟨w, ok2, e1, e2⟩ := pendF_phi h.phi hv (i := x) (by omega)
      obtain ⟨m, r', v', ok', g1, g2, g3, g4, g5, g6, g7, g8, g9⟩ :=
        ih fuel { r with start := r.start + 1, isRunStart := false } (x + 1) w ok2 (by omega) (by dsimp only; omega) (by omega)
          (fun h0 => h.goodUp r (hg (by omega)) (by omega)) e2
      dsimp only at g3 g4
      refine ⟨m + 1, r', v', ok', by omega, ?_, by omega, g4, by omega, fun hm => g6 (by omega),
        g7.imp (fun e => by omega) id, by omega,
        by rw [show x + (m + 1) = x + 1 + m by omega]; exact g9⟩
      rw [RangePhi.reportValid]
      rw [if_neg (by simp [h.empty]; omega)]
      simp only [h.update, SrCSA.updateRun, Option.bind_eq_bind, Option.bind_some, e1, g2]
      rw [up_succ]; rfl

theorem runValid_forw (h : ForwOK F T sa s kept Good) (hv : PhiValidF T sa F.phi) {r : FRun} {t x v : Nat} {ok : Bool} {fuel : Nat}
    (hr : AtF T sa kept Good t r x) (hfuel : 2 ≤ fuel) (hxn : x + (r.stop - r.start) ≤ T.length) (hp : PendF T sa s kept x v ok) :
    ∃ m r' v' ok', m ≤ r.stop - r.start ∧
      F.runValid (fun y => do
          let z ← csub (y + 1 + F.seqSize) (t + 1)
          cmod (z + 1) F.seqSize) fuel r v ok = some (up sa x m, r', v', ok') ∧
      r'.start = r.start + m ∧ r'.stop = r.stop ∧ (∀ y, r.start + m ≤ y → y < r.stop → ¬ kept y) ∧
      PendF T sa s kept (x + m) v' ok' := by
  obtain ⟨hg, hne, hst, ht⟩ := hr
  obtain ⟨fuel, rfl⟩ : ∃ g, fuel = g + 1 + 1 := ⟨fuel - 2, by omega⟩
  obtain ⟨m, r', v', ok', g1, g2, g3, g4, g5, g6, g7, g8, g9⟩ :=
    reportValid_forw h hv (r.stop - r.start) F.seqSize r x v ok (by rw [h.seq]; omega) (by omega) hxn (fun _ => hg) hp
  rw [RangePhi.runValid, g2]
  simp only [Option.bind_eq_bind, Option.bind_some]
  by_cases hm : m = r.stop - r.start
  · refine ⟨m, r', v', ok', g1, ?_, g3, g4, by omega, g9⟩
    have : F.isRunEmpty r' = true := by simp [h.empty, g3, g4]; omega
    simp [this]
  · have hok : ok' = false := by tauto
    subst hok
    have hemp : F.isRunEmpty r' = false := by simp [h.empty, g3, g4]; omega
    simp only [hemp, Bool.false_eq_true, if_false]
    by_cases hm0 : m = 0
    · subst hm0
      have := g5 rfl
      subst this
      by_cases hk : kept r'.start
      · have htn := h.trav_lt ht (by omega) (by omega)
        have hval := sample_value_forw h.isSA (x := x) (by omega) (Nat.le_of_lt htn) (ht 0 (by omega)).1
        simp only [Nat.add_zero] at hval
        obtain ⟨z, hc, hz⟩ : ∃ z, csub (pv T sa r'.start + 1 + T.length) (t + 1) = some z ∧
            z + 1 = pv T sa r'.start + 1 + T.length - t := ⟨_, by rw [csub, if_pos (by omega)], by omega⟩
        rw [← hz] at hval
        obtain ⟨m2, r2, v2, ok2, f1, f2, f3, f4, f5, f6, f7, f8, f9⟩ :=
          reportValid_forw h hv (r'.stop - r'.start) F.seqSize r' x (saAt sa x) true (by rw [h.seq]; omega) (by omega) hxn (fun _ => hg)
            (pendF_of_eq rfl)
        have hm2 := f8 (by omega) rfl
        rw [h.seq] at f2
        simp only [h.sampled r' hg hne hst hk, Option.bind_some, h.seq, hc, cmod, show T.length ≠ 0 by omega, if_false, hval]
        rw [RangePhi.runValid]
        simp only [h.seq, Option.bind_eq_bind, Option.bind_some, f2]
        refine ⟨m2, r2, v2, ok2, f1, ?_, f3, f4, fun y h1 h2 => h.inside r' hg y (by omega) h2, f9⟩
        by_cases hl : m2 = r'.stop - r'.start
        · have : F.isRunEmpty r2 = true := by simp [h.empty, f3, f4]; omega
          simp [this, up_zero]
        · have hok2 : ok2 = false := by tauto
          have hem2 : F.isRunEmpty r2 = false := by simp [h.empty, f3, f4]; omega
          subst hok2
          have hn := h.noSample r2 (f6 (by omega)) (by omega) (by omega) (h.inside r' hg _ (by omega) (by omega))
          simp [hem2, hn, up_zero]
      · simp only [h.noSample r' hg hne hst hk, Option.bind_some]
        refine ⟨0, r', v', false, by omega, rfl, rfl, rfl, ?_, g9⟩
        intro y h1 h2 hy
        rcases Nat.lt_or_eq_of_le h1 with hlt | heq
        · exact h.inside r' hg y (by omega) h2 hy
        · rw [Nat.add_zero] at heq; exact hk (heq ▸ hy)
    · have hn := h.noSample r' (g6 (by omega)) (by omega) (by omega) (h.inside r hg _ (by omega) (by omega))
      simp only [hn, Option.bind_some]
      exact ⟨m, r', v', false, g1, rfl, g3, g4, fun y h1 h2 => h.inside r hg y (by omega) h2, g9⟩

/-- specification of `compute` after `t` steps -/
def ComputeSpecFV (T sa : List Nat) (s : Nat) (kept : Nat → Prop) (Good : FRun → Prop) (t : Nat)
    (f : FRun → Nat → Bool → Option (List Nat × Nat × Bool)) : Prop :=
  ∀ (r : FRun) (x v : Nat) (ok : Bool), AtF T sa kept Good t r x → x + (r.stop - r.start) ≤ T.length → PendF T sa s kept x v ok →
    ∃ v' ok', f r v ok = some (up sa x (r.stop - r.start), v', ok') ∧ PendF T sa s kept (x + (r.stop - r.start)) v' ok'

theorem fold_chainV {t : Nat} {f : FRun → Nat → Bool → Option (List Nat × Nat × Bool)} (hf : ComputeSpecFV T sa s kept Good t f) :
    ∀ (l : List FRun) (x y v : Nat) (ok : Bool) (acc : List Nat), Chain (AtF T sa kept Good t) x y l → y ≤ T.length →
      PendF T sa s kept x v ok →
      ∃ v' ok', l.foldlM (fun (acc : List Nat × Nat × Bool) r => do
          let (l, e) ← f r acc.2.1 acc.2.2
          return (acc.1 ++ l, e)) (acc, v, ok) = some (acc ++ up sa x (y - x), v', ok') ∧ PendF T sa s kept y v' ok' := by
  intro l
  induction l with
  | nil =>
    intro x y v ok acc hc hy hp
    have : x = y := hc
    subst this
    exact ⟨v, ok, by simp [up_zero], hp⟩
  | cons r rs ih =>
    rintro x y v ok acc ⟨hr, hle, hc⟩ hy hp
    have h2 := hr.2.1
    obtain ⟨v1, ok1, e, ep⟩ := hf r x v ok hr (by omega) hp
    obtain ⟨v2, ok2, e2, ep2⟩ := ih (x + (r.stop - r.start)) y v1 ok1 (acc ++ up sa x (r.stop - r.start)) hc hy ep
    refine ⟨v2, ok2, ?_, ep2⟩
    simp only [List.foldlM_cons, e, Option.bind_eq_bind, Option.bind_some, Option.pure_def]
    simp only [Option.bind_eq_bind, Option.pure_def] at e2
    rw [e2, List.append_assoc, show y - x = (r.stop - r.start) + (y - (x + (r.stop - r.start))) by omega, up_add]

theorem phiWhileV_forw (h : ForwOK F T sa s kept Good) (hv : PhiValidF T sa F.phi) (len : Nat) :
    ∀ (fuel : Nat) (r : FRun) (x v : Nat) (ok : Bool), len < fuel →
    r.stop - r.start = len + 1 → r.start < r.stop → x + (len + 1) ≤ T.length →
    (∀ j, j < len + 1 → ∀ e, e < s → ¬ kept (psiIt T sa e (x + j))) → PendF T sa s kept x v ok →
    ∃ v' ok', F.phiWhileV fuel r v = some (up sa x (len + 1), v', ok') ∧ PendF T sa s kept (x + (len + 1)) v' ok' := by
  induction len with
  | zero =>
    intro fuel r x v ok hf hl hne hxn hno hp
    obtain ⟨fuel, rfl⟩ : ∃ g, fuel = g + 1 := ⟨fuel - 1, by omega⟩
    have hve := (hp (by omega)).2 (hno 0 (by omega))
    subst hve
    obtain ⟨w, ok2, e1, e2⟩ := pendF_phi h.phi hv (i := x) (by omega)
    refine ⟨w, ok2, ?_, e2⟩
    rw [RangePhi.phiWhileV]
    simp only [h.update, SrCSA.updateRun, Option.bind_eq_bind, Option.bind_some, e1, h.empty,
      show ¬ r.start + 1 < r.stop by omega, decide_false, Bool.not_false, if_true]
    rfl
  | succ len ih =>
    intro fuel r x v ok hf hl hne hxn hno hp
    obtain ⟨fuel, rfl⟩ : ∃ g, fuel = g + 1 := ⟨fuel - 1, by omega⟩
    have hve := (hp (by omega)).2 (hno 0 (by omega))
    subst hve
    obtain ⟨w, ok2, e1, e2⟩ := pendF_phi h.phi hv (i := x) (by omega)
    obtain ⟨v', ok', f1, f2⟩ := ih fuel { r with start := r.start + 1, isRunStart := false } (x + 1) w ok2 (by omega) (by dsimp only; omega)
      (by dsimp only; omega) (by omega)
      (fun j hj e he => by rw [show x + 1 + j = x + (j + 1) by omega]; exact hno (j+1) (by omega) e he) e2
    refine ⟨v', ok', ?_, by rw [show x + (len + 1 + 1) = x + 1 + (len + 1) by omega]; exact f2⟩
    rw [RangePhi.phiWhileV]
    simp only [h.update, SrCSA.updateRun, Option.bind_eq_bind, Option.bind_some, e1, h.empty,
      show r.start + 1 < r.stop by omega, decide_true, Bool.not_true, Bool.false_eq_true, if_false, f1, up_succ x (len + 1)]
    rfl

theorem forwComputeV_spec (h : ForwOK F T sa s kept Good) (hv : PhiValidF T sa F.phi) (depth : Nat) : ∀ t, s + 1 ≤ t + depth → 1 ≤ depth →
    ComputeSpecFV T sa s kept Good t (F.forwComputeV depth (t + 1)) := by
  induction depth with
  | zero => intro t _ h1; omega
  | succ depth ih =>
    intro t ht1 _ r x v ok hat hxn hp
    obtain ⟨hg, hne, hst, ht⟩ := hat
    rw [RangePhi.forwComputeV]
    by_cases hs : F.samplingSize < t + 1
    · rw [if_pos hs]
      have := phiWhileV_forw h hv (r.stop - r.start - 1) F.seqSize r x v ok (by rw [h.seq]; omega) (by omega) hne (by omega)
        (fun j hj e he => (ht j (by omega)).2 e (by rw [h.rate] at hs; omega)) hp
      rw [show r.stop - r.start - 1 + 1 = r.stop - r.start by omega] at this
      exact this
    · rw [if_neg hs]
      rw [h.rate] at hs
      have hnext := ih (t + 1) (by omega) (by omega)
      generalize F.forwComputeV depth (t + 1 + 1) = f at hnext ⊢
      obtain ⟨m, r', w, okw, g1, g2, g3, g4, g5, g6⟩ := runValid_forw h hv (fuel := F.seqSize + 2) ⟨hg, hne, hst, ht⟩ (by omega) hxn hp
      rw [g2]
      simp only [Option.bind_eq_bind, Option.bind_some]
      by_cases hm : m = r.stop - r.start
      · have : F.isRunEmpty r' = true := by simp [h.empty, g3, g4]; omega
        refine ⟨w, okw, by simp [this, hm], by rw [← hm]; exact g6⟩
      · have hem : F.isRunEmpty r' = false := by simp [h.empty, g3, g4]; omega
        obtain ⟨l, e1, e2⟩ := h.split r' (by omega) (by omega)
        rw [g3, g4] at e2
        have hch := chain_of_images (t := t) (x := x) (a := r.start) l (r.start + m) r.stop (by omega) (by omega) ht g5 e2
        rw [show x + (r.start + m - r.start) = x + m by omega] at hch
        obtain ⟨v2, ok2, f1, f2⟩ := fold_chainV hnext l _ _ w okw [] hch (by omega) g6
        refine ⟨v2, ok2, ?_, f2⟩
        simp only [Option.bind_eq_bind, Option.pure_def] at f1
        simp only [hem, Bool.false_eq_true, if_false, e1, Option.bind_some, Option.pure_def, f1]
        rw [show r.stop - r.start = m + (r.stop - r.start - m) by omega, up_add,
          show x + (m + (r.stop - r.start - m)) - (x + m) = r.stop - r.start - m by omega]
        simp

theorem forwRangeV_spec (h : ForwOK F T sa s kept Good) (hv : PhiValidF T sa F.phi) {l : List FRun} {a b : Nat} (ha : 1 ≤ a)
    (hab : a ≤ b) (hb : b ≤ T.length) (hp : Images T.length id Good a b l) :
    F.forwRangeV (some l) (saAt sa (a - 1)) = some (up sa a (b - a)) := by
  unfold RangePhi.forwRangeV
  obtain ⟨v, ok, e1, e2⟩ := pendF_phi h.phi hv (i := a - 1) (by have := h.text.pos; omega)
  rw [Nat.sub_add_cancel ha] at e2
  obtain ⟨v', ok', f1, f2⟩ := fold_chainV (forwComputeV_spec h hv (F.samplingSize + 1) 0 (by rw [h.rate]; omega) (by omega)) l a b v ok []
    (chain_of_id rfl l a b hp) hb e2
  simp only [Option.bind_eq_bind, Option.pure_def, Nat.zero_add] at f1
  simp only [e1, Option.bind_eq_bind, Option.pure_def, Option.bind_some, f1]
  simp

end
end Sri
