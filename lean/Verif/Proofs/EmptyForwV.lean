import Verif.Proofs.EmptyForw
import Verif.Proofs.ForwRangeV
import Verif.Proofs.SrCSAValid
/-! # Reporting a range forwards with validity marks from a toehold that is wrong

As many text positions are reported as the range is wide, whatever the toehold is. -/
namespace Sri
set_option autoImplicit false

section
variable {T sa : List Nat} {kept : Nat → Prop} {s : Nat} {Good : FRun → Prop} {F : RangePhi FRun}

/-- phi of a text position is a text position -/
theorem phi_any (h : ForwOK F T sa s kept Good) (hlt : PhiLt T.length F.phi) {v : Nat} (hv : v < T.length) :
    ∃ w ok, F.phi v = some (w, ok) ∧ w < T.length := by
  obtain ⟨w, ok, e1, -⟩ := h.phi (isaOf sa v) (isaOf_lt h.isSA hv)
  rw [saAt_isaOf h.isSA hv] at e1
  exact ⟨w, ok, e1, hlt _ _ _ e1⟩

/-- `len` text positions -/
def SomeOf (n len : Nat) (l : List Nat) : Prop := l.length = len ∧ ∀ v ∈ l, v < n

theorem SomeOf.append {n a b : Nat} {l m : List Nat} (h1 : SomeOf n a l) (h2 : SomeOf n b m) : SomeOf n (a + b) (l ++ m) :=
  ⟨by rw [List.length_append, h1.1, h2.1], fun v hv => (List.mem_append.1 hv).elim (h1.2 v) (h2.2 v)⟩

theorem SomeOf.cons {n a v : Nat} {l : List Nat} (hv : v < n) (h : SomeOf n a l) : SomeOf n (a + 1) (v :: l) :=
  ⟨by rw [List.length_cons, h.1], fun w hw => (List.mem_cons.1 hw).elim (fun e => e ▸ hv) (h.2 w)⟩

theorem SomeOf.nil (n : Nat) : SomeOf n 0 [] := ⟨rfl, fun _ h => by simp at h⟩

theorem reportValid_any (h : ForwOK F T sa s kept Good) (hlt : PhiLt T.length F.phi) (len : Nat) :
    ∀ (fuel : Nat) (r : FRun) (v : Nat) (ok : Bool), len ≤ fuel → r.start + len = r.stop → (0 < len → Good r) → r.stop ≤ T.length →
    v < T.length →
    ∃ m l r' v' ok', m ≤ len ∧ F.reportValid fuel r v ok = some (l, r', v', ok') ∧ SomeOf T.length m l ∧
      r'.start = r.start + m ∧ r'.stop = r.stop ∧ (m = 0 → r' = r) ∧ (m < len → Good r') ∧
      (m = len ∨ ok' = false) ∧ (0 < len → ok = true → 0 < m) ∧ v' < T.length := by
  induction len with
  | zero =>
    intro fuel r v ok hf hl hg _ hv
    refine ⟨0, [], r, v, ok, Nat.le_refl _, ?_, SomeOf.nil _, rfl, rfl, fun _ => rfl, by omega, Or.inl rfl, by omega, hv⟩
    cases fuel <;> simp [RangePhi.reportValid, h.empty, show ¬ r.start < r.stop by omega]
  | succ len ih =>
    intro fuel r v ok hf hl hg hst hv
    cases ok with
    | false =>
      refine ⟨0, [], r, v, false, by omega, ?_, SomeOf.nil _, rfl, rfl, fun _ => rfl, hg, Or.inr rfl, by simp, hv⟩
      cases fuel <;> simp [RangePhi.reportValid]
    | true =>
      obtain ⟨fuel, rfl⟩ : ∃ g, fuel = g + 1 := ⟨fuel - 1, by omega⟩
      obtain ⟨w, ok2, e1, e2⟩ := phi_any h hlt hv
      obtain ⟨m, l, r', v', ok', g1, g2, g0, g3, g4, g5, g6, g7, g8, g9⟩ :=
        ih fuel { r with start := r.start + 1, isRunStart := false } w ok2 (by omega) (by dsimp only; omega)
          (fun h0 => h.goodUp r (hg (by omega)) (by omega)) hst e2
      dsimp only at g3 g4
      refine ⟨m + 1, v :: l, r', v', ok', by omega, ?_, g0.cons hv, by omega, g4, by omega, fun hm => g6 (by omega),
        g7.imp (fun e => by omega) id, by omega, g9⟩
      rw [RangePhi.reportValid]
      rw [if_neg (by simp [h.empty]; omega)]
      simp only [h.update, SrCSA.updateRun, Option.bind_eq_bind, Option.bind_some, e1, g2]
      rfl

theorem runValid_any (h : ForwOK F T sa s kept Good) (hlt : PhiLt T.length F.phi) {r : FRun} {t x v : Nat} {ok : Bool} {fuel : Nat}
    (hr : AtF T sa kept Good t r x) (hfuel : 2 ≤ fuel) (hxn : x + (r.stop - r.start) ≤ T.length) (hv : v < T.length) :
    ∃ m l r' v' ok', m ≤ r.stop - r.start ∧
      F.runValid (fun y => do
          let z ← csub (y + 1 + F.seqSize) (t + 1)
          cmod (z + 1) F.seqSize) fuel r v ok = some (l, r', v', ok') ∧ SomeOf T.length m l ∧
      r'.start = r.start + m ∧ r'.stop = r.stop ∧ (∀ y, r.start + m ≤ y → y < r.stop → ¬ kept y) ∧ v' < T.length := by
  obtain ⟨hg, hne, hst, ht⟩ := hr
  obtain ⟨fuel, rfl⟩ : ∃ g, fuel = g + 1 + 1 := ⟨fuel - 2, by omega⟩
  obtain ⟨m, l, r', v', ok', g1, g2, g0, g3, g4, g5, g6, g7, g8, g9⟩ :=
    reportValid_any h hlt (r.stop - r.start) F.seqSize r v ok (by rw [h.seq]; omega) (by omega) (fun _ => hg) hst hv
  rw [RangePhi.runValid, g2]
  simp only [Option.bind_eq_bind, Option.bind_some]
  by_cases hm : m = r.stop - r.start
  · refine ⟨m, l, r', v', ok', g1, ?_, g0, g3, g4, by omega, g9⟩
    have : F.isRunEmpty r' = true := by simp [h.empty, g3, g4]; omega
    simp [this]
  · have hok : ok' = false := by tauto
    subst hok
    have hemp : F.isRunEmpty r' = false := by simp [h.empty, g3, g4]; omega
    simp only [hemp, Bool.false_eq_true, if_false]
    by_cases hm0 : m = 0
    · subst hm0
      have := g5 rfl
      subst this
      obtain rfl : l = [] := List.length_eq_zero_iff.1 g0.1
      by_cases hk : kept r'.start
      · have htn := h.trav_lt ht (by omega) (by omega)
        obtain ⟨z, hc, -⟩ : ∃ z, csub (pv T sa r'.start + 1 + T.length) (t + 1) = some z ∧
            z + 1 = pv T sa r'.start + 1 + T.length - t := ⟨_, by rw [csub, if_pos (by omega)], by omega⟩
        obtain ⟨m2, l2, r2, v2, ok2, f1, f2, f0, f3, f4, f5, f6, f7, f8, f9⟩ :=
          reportValid_any h hlt (r'.stop - r'.start) F.seqSize r' ((z + 1) % T.length) true (by rw [h.seq]; omega) (by omega) (fun _ => hg) hst
            (Nat.mod_lt _ (by omega))
        have hm2 := f8 (by omega) rfl
        rw [h.seq] at f2
        simp only [h.sampled r' hg hne hst hk, Option.bind_some, h.seq, hc, cmod, show T.length ≠ 0 by omega, if_false]
        rw [RangePhi.runValid]
        simp only [h.seq, Option.bind_eq_bind, Option.bind_some, f2]
        refine ⟨m2, l2, r2, v2, ok2, f1, ?_, f0, f3, f4, fun y h1 h2 => h.inside r' hg y (by omega) h2, f9⟩
        by_cases hl : m2 = r'.stop - r'.start
        · have : F.isRunEmpty r2 = true := by simp [h.empty, f3, f4]; omega
          simp [this]
        · have hok2 : ok2 = false := by tauto
          have hem2 : F.isRunEmpty r2 = false := by simp [h.empty, f3, f4]; omega
          subst hok2
          have hn := h.noSample r2 (f6 (by omega)) (by omega) (by omega) (h.inside r' hg _ (by omega) (by omega))
          simp [hem2, hn]
      · simp only [h.noSample r' hg hne hst hk, Option.bind_some]
        refine ⟨0, [], r', v', false, by omega, rfl, SomeOf.nil _, rfl, rfl, ?_, g9⟩
        intro y h1 h2 hy
        rcases Nat.lt_or_eq_of_le h1 with hlt | heq
        · exact h.inside r' hg y (by omega) h2 hy
        · rw [Nat.add_zero] at heq; exact hk (heq ▸ hy)
    · have hn := h.noSample r' (g6 (by omega)) (by omega) (by omega) (h.inside r hg _ (by omega) (by omega))
      simp only [hn, Option.bind_some]
      exact ⟨m, l, r', v', false, g1, rfl, g0, g3, g4, fun y h1 h2 => h.inside r hg y (by omega) h2, g9⟩

/-- `compute` after `t` steps, from any value -/
def AnySpecFV (T sa : List Nat) (kept : Nat → Prop) (Good : FRun → Prop) (t : Nat)
    (f : FRun → Nat → Bool → Option (List Nat × Nat × Bool)) : Prop :=
  ∀ (r : FRun) (x v : Nat) (ok : Bool), AtF T sa kept Good t r x → x + (r.stop - r.start) ≤ T.length → v < T.length →
    ∃ l v' ok', f r v ok = some (l, v', ok') ∧ SomeOf T.length (r.stop - r.start) l ∧ v' < T.length

theorem fold_anyV {t : Nat} {f : FRun → Nat → Bool → Option (List Nat × Nat × Bool)} (hf : AnySpecFV T sa kept Good t f) :
    ∀ (l : List FRun) (x y v : Nat) (ok : Bool) (acc : List Nat), Chain (AtF T sa kept Good t) x y l → y ≤ T.length → v < T.length →
      ∃ m v' ok', l.foldlM (fun (acc : List Nat × Nat × Bool) r => do
          let (l, e) ← f r acc.2.1 acc.2.2
          return (acc.1 ++ l, e)) (acc, v, ok) = some (acc ++ m, v', ok') ∧ x ≤ y ∧ SomeOf T.length (y - x) m ∧ v' < T.length := by
  intro l
  induction l with
  | nil =>
    intro x y v ok acc hc hy hp
    have : x = y := hc
    subst this
    exact ⟨[], v, ok, by simp, Nat.le_refl _, by rw [Nat.sub_self]; exact SomeOf.nil _, hp⟩
  | cons r rs ih =>
    rintro x y v ok acc ⟨hr, hle, hc⟩ hy hp
    have h2 := hr.2.1
    obtain ⟨m1, v1, ok1, e, e0, ep⟩ := hf r x v ok hr (by omega) hp
    obtain ⟨m2, v2, ok2, e2, e3, e4, ep2⟩ := ih (x + (r.stop - r.start)) y v1 ok1 (acc ++ m1) hc hy ep
    refine ⟨m1 ++ m2, v2, ok2, ?_, by omega, ?_, ep2⟩
    · simp only [List.foldlM_cons, e, Option.bind_eq_bind, Option.bind_some, Option.pure_def]
      simp only [Option.bind_eq_bind, Option.pure_def] at e2
      rw [e2, List.append_assoc]
    · have := e0.append e4
      rwa [show r.stop - r.start + (y - (x + (r.stop - r.start))) = y - x by omega] at this

theorem phiWhileV_any (h : ForwOK F T sa s kept Good) (hlt : PhiLt T.length F.phi) (len : Nat) :
    ∀ (fuel : Nat) (r : FRun) (v : Nat), len < fuel → r.stop - r.start = len + 1 → r.start < r.stop → v < T.length →
    ∃ l v' ok', F.phiWhileV fuel r v = some (l, v', ok') ∧ SomeOf T.length (len + 1) l ∧ v' < T.length := by
  induction len with
  | zero =>
    intro fuel r v hf hl hne hp
    obtain ⟨fuel, rfl⟩ : ∃ g, fuel = g + 1 := ⟨fuel - 1, by omega⟩
    obtain ⟨w, ok2, e1, e2⟩ := phi_any h hlt hp
    refine ⟨[v], w, ok2, ?_, (SomeOf.nil _).cons hp, e2⟩
    rw [RangePhi.phiWhileV]
    simp only [h.update, SrCSA.updateRun, Option.bind_eq_bind, Option.bind_some, e1, h.empty,
      show ¬ r.start + 1 < r.stop by omega, decide_false, Bool.not_false, if_true]
    rfl
  | succ len ih =>
    intro fuel r v hf hl hne hp
    obtain ⟨fuel, rfl⟩ : ∃ g, fuel = g + 1 := ⟨fuel - 1, by omega⟩
    obtain ⟨w, ok2, e1, e2⟩ := phi_any h hlt hp
    obtain ⟨l, v', ok', f1, f2, f3⟩ := ih fuel { r with start := r.start + 1, isRunStart := false } w (by omega) (by dsimp only; omega)
      (by dsimp only; omega) e2
    refine ⟨v :: l, v', ok', ?_, f2.cons hp, f3⟩
    rw [RangePhi.phiWhileV]
    simp only [h.update, SrCSA.updateRun, Option.bind_eq_bind, Option.bind_some, e1, h.empty,
      show r.start + 1 < r.stop by omega, decide_true, Bool.not_true, Bool.false_eq_true, if_false, f1]
    rfl

theorem forwComputeV_any (h : ForwOK F T sa s kept Good) (hlt : PhiLt T.length F.phi) (depth : Nat) : ∀ t, s + 1 ≤ t + depth → 1 ≤ depth →
    AnySpecFV T sa kept Good t (F.forwComputeV depth (t + 1)) := by
  induction depth with
  | zero => intro t _ h1; omega
  | succ depth ih =>
    intro t ht1 _ r x v ok hat hxn hp
    obtain ⟨hg, hne, hst, ht⟩ := hat
    rw [RangePhi.forwComputeV]
    by_cases hs : F.samplingSize < t + 1
    · rw [if_pos hs]
      have := phiWhileV_any h hlt (r.stop - r.start - 1) F.seqSize r v (by rw [h.seq]; omega) (by omega) hne hp
      rw [show r.stop - r.start - 1 + 1 = r.stop - r.start by omega] at this
      exact this
    · rw [if_neg hs]
      rw [h.rate] at hs
      have hnext := ih (t + 1) (by omega) (by omega)
      generalize F.forwComputeV depth (t + 1 + 1) = f at hnext ⊢
      obtain ⟨m, l1, r', w, okw, g1, g2, g0, g3, g4, g5, g6⟩ :=
        runValid_any h hlt (ok := ok) (fuel := F.seqSize + 2) ⟨hg, hne, hst, ht⟩ (by omega) hxn hp
      rw [g2]
      simp only [Option.bind_eq_bind, Option.bind_some]
      by_cases hm : m = r.stop - r.start
      · have : F.isRunEmpty r' = true := by simp [h.empty, g3, g4]; omega
        exact ⟨l1, w, okw, by simp [this], by rw [← hm]; exact g0, g6⟩
      · have hem : F.isRunEmpty r' = false := by simp [h.empty, g3, g4]; omega
        obtain ⟨l, e1, e2⟩ := h.split r' (by omega) (by omega)
        rw [g3, g4] at e2
        have hch := chain_of_images (t := t) (x := x) (a := r.start) l (r.start + m) r.stop (by omega) (by omega) ht g5 e2
        rw [show x + (r.start + m - r.start) = x + m by omega] at hch
        obtain ⟨m2, v2, ok2, f1, f2, f3, f4⟩ := fold_anyV hnext l _ _ w okw [] hch (by omega) g6
        refine ⟨l1 ++ m2, v2, ok2, ?_, ?_, f4⟩
        · simp only [Option.bind_eq_bind, Option.pure_def, List.nil_append] at f1
          simp only [hem, Bool.false_eq_true, if_false, e1, Option.bind_some, Option.pure_def, f1]
        · have := g0.append f3
          rwa [show m + (x + (r.stop - r.start) - (x + m)) = r.stop - r.start by omega] at this

theorem forwRangeV_any (h : ForwOK F T sa s kept Good) (hlt : PhiLt T.length F.phi) {l : List FRun} {a b prev : Nat} (hb : b ≤ T.length)
    (hp : prev < T.length) (hi : Images T.length id Good a b l) : ∃ m, F.forwRangeV (some l) prev = some m ∧ SomeOf T.length (b - a) m := by
  unfold RangePhi.forwRangeV
  obtain ⟨v, ok, e1, e2⟩ := phi_any h hlt hp
  obtain ⟨m, v', ok', f1, f2, f3, f4⟩ := fold_anyV (forwComputeV_any h hlt (F.samplingSize + 1) 0 (by rw [h.rate]; omega) (by omega)) l a b v ok []
    (chain_of_id rfl l a b hi) hb e2
  simp only [Option.bind_eq_bind, Option.pure_def, Nat.zero_add, List.nil_append] at f1
  exact ⟨m, by simp only [e1, Option.bind_eq_bind, Option.pure_def, Option.bind_some, f1], f3⟩

end

namespace SrCSAValid
variable {I : SrCSAValid} {T T' sa K : List Nat} {V : List (Nat × Nat)} {O : ForwOps} {Good : FRun → Prop} {den : FData → Nat → Prop} {Strong : FData → Prop}

theorem OK.phiLt_mark (h : I.OK T sa K V) : PhiLt T.length I.phiMark := by
  intro v w ok e
  have hn := h.csa.nav.text.pos
  unfold phiMark phiForward at e
  simp only [Option.bind_eq_bind, Option.bind_eq_some_iff, Option.pure_def, Option.some_inj, Prod.mk.injEq, h.csa.nav.n] at e
  obtain ⟨_, -, _, -, _, -, _, -, y, hy, rfl, -⟩ := e
  rw [cmod, if_neg (by omega), Option.some_inj] at hy
  rw [← hy]
  exact Nat.mod_lt _ hn

theorem OK.phiLt_area (h : I.OK T sa K V) : PhiLt T.length I.phiArea := by
  intro v w ok e
  have hn := h.csa.nav.text.pos
  unfold phiArea phiForward at e
  simp only [Option.bind_eq_bind, Option.bind_eq_some_iff, Option.pure_def, Option.some_inj, Prod.mk.injEq, h.csa.nav.n] at e
  obtain ⟨_, -, _, -, _, -, _, -, y, hy, rfl, -⟩ := e
  rw [cmod, if_neg (by omega), Option.some_inj] at hy
  rw [← hy]
  exact Nat.mod_lt _ hn

/-- **Locate of the empty pattern** on a sub-sampled CSA with validity information: as many text positions as there are, from a wrong one on -/
theorem OK.locate_empty (h : I.OK T sa K V) (ho : SrCSA.OpsOK O T sa K Good den Strong) (hn : 2 ≤ T.length)
    (hi : O.getSampleData SrCSA.data0 = some none ∨ O.getSampleData SrCSA.data0 = some (some (pv T sa 0)))
    {phi : Nat → Option (Nat × Bool)} (hphi : PhiOKF T sa I.csa.s (keptHd T sa K) phi) (hlt : PhiLt T.length phi) :
    ∃ l, (I.functorsWith O phi).locate [] = some l ∧ SomeOf T.length T.length l ∧ l.head? = some (T.length - 2) := by
  have ok := h.csa.forwOK ho hphi
  obtain ⟨r, e1, e2⟩ := ho.range 1 T.length (by omega) (Nat.le_refl _)
  obtain ⟨m, f1, f2⟩ := forwRangeV_any ok hlt (prev := T.length - 2) (Nat.le_refl _) (by omega) e2
  refine ⟨(T.length - 2) :: m, ?_, ?_, rfl⟩
  · have ht := h.csa.toehold_zero ho hn hi
    have hr : I.phiForRange O phi ⟨1, I.csa.n⟩ (T.length - 2) = some m := by
      unfold phiForRange
      simp only [h.csa.nav.n, show 1 < T.length by omega, if_true, e1, f1]
    have hne : ¬ I.csa.n = 0 := by rw [h.csa.nav.n]; omega
    unfold Functors.locate
    simp only [List.reverse_nil, Functors.locateLoop, Option.bind_eq_bind, Option.bind_some]
    unfold functorsWith SrCSA.functorsWith computeAllValues
    dsimp only
    unfold SrCSA.data0 at ht
    simp only [show 0 < I.csa.n by omega, decide_true, Bool.not_true, Bool.false_eq_true, if_false, ht, RCSA.shrink, Nat.zero_add,
      Option.bind_eq_bind, Option.bind_some, hr]
    rfl
  · have := f2.cons (show T.length - 2 < T.length by omega)
    rwa [Nat.sub_add_cancel (by omega)] at this

end SrCSAValid
end Sri
