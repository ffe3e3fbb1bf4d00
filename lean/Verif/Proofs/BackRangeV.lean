import Verif.Proofs.BackRange
/-! # Reporting a range backwards with validity marks (phi.h:561-661) -/
namespace Sri
set_option autoImplicit false

section
variable {T sa : List Nat} {kept : Nat → Prop} {s : Nat} {F : RangePhi PhiRun}

/-- the pending value for position `x`: right when it is flagged valid, and right when no kept tail is met within `s` steps -/
def Pend (T sa : List Nat) (s : Nat) (kept : Nat → Prop) (x v : Nat) (ok : Bool) : Prop :=
  (ok = true → v = saAt sa x) ∧ ((∀ e, e < s → ¬ kept (lfIt T sa e x)) → v = saAt sa x)

theorem pend_phi (h : PhiOK T sa s kept F.phi) (hv : PhiValid T sa F.phi) {i : Nat} (h1 : 1 ≤ i) (hi : i < T.length) :
    ∃ v ok, F.phi (saAt sa i) = some (v, ok) ∧ Pend T sa s kept (i-1) v ok := by
  obtain ⟨v, ok, e1, e2⟩ := h i h1 hi
  exact ⟨v, ok, e1, fun hok => hv i v h1 hi (by rw [e1, hok]), e2⟩

theorem pend_of_eq {x v : Nat} {ok : Bool} (h : v = saAt sa x) : Pend T sa s kept x v ok := ⟨fun _ => h, fun _ => h⟩

theorem reportValid_spec (h : BackOK F T sa s kept) (hv : PhiValid T sa F.phi) (len : Nat) : ∀ (fuel : Nat) (r : PhiRun) (x v : Nat) (ok : Bool),
    len ≤ fuel → r.start + len = r.stop → 1 ≤ x → x + len ≤ T.length → Pend T sa s kept (x + len - 1) v ok →
    ∃ m r' v' ok', m ≤ len ∧ F.reportValid fuel r v ok = some (down sa (x + m) (len - m), r', v', ok') ∧
      r'.start = r.start ∧ r'.stop = r.start + m ∧ r'.c = r.c ∧ r'.rnk = r.rnk ∧ (m = len → r' = r) ∧
      (m < len → r'.isRunEnd = false) ∧ (m = 0 ∨ ok' = false) ∧ (0 < len → ok = true → m < len) ∧
      Pend T sa s kept (x + m - 1) v' ok' := by
  induction len with
  | zero =>
    intro fuel r x v ok hf hl hx hxn hp
    refine ⟨0, r, v, ok, Nat.le_refl _, ?_, rfl, by omega, rfl, rfl, fun _ => rfl, by omega, Or.inl rfl, by omega, hp⟩
    cases fuel <;> simp [RangePhi.reportValid, h.empty, show ¬ r.start < r.stop by omega, down]
  | succ len ih =>
    intro fuel r x v ok hf hl hx hxn hp
    cases ok with
    | false =>
      refine ⟨len + 1, r, v, false, Nat.le_refl _, ?_, rfl, by omega, rfl, rfl, fun _ => rfl, by omega, Or.inr rfl, by simp, hp⟩
      cases fuel <;> simp [RangePhi.reportValid, down]
    | true =>
      obtain ⟨fuel, rfl⟩ : ∃ g, fuel = g + 1 := ⟨fuel - 1, by omega⟩
      have hve := hp.1 rfl
      subst hve
      obtain ⟨w, ok2, e1, e2⟩ := pend_phi h.phi hv (i := x + (len + 1) - 1) (by omega) (by omega)
      obtain ⟨m, r', v', ok', g1, g2, g3, g4, g5, g6, g7, g8, g9, g10, g11⟩ :=
        ih fuel { r with stop := r.stop - 1, isRunEnd := false } x w ok2 (by omega) (by dsimp only; omega) hx (by omega)
          (by rw [show x + (len + 1) - 1 - 1 = x + len - 1 by omega] at e2; exact e2)
      refine ⟨m, r', v', ok', by omega, ?_, g3, g4, g5, g6, by omega, ?_, g9, by omega, g11⟩
      · rw [RangePhi.reportValid]
        rw [if_neg (by simp [h.empty]; omega)]
        simp only [h.update, updateRun_eq r (by omega), Option.bind_eq_bind, Option.bind_some, e1, g2]
        rw [show len + 1 - m = (len - m) + 1 by omega, down_succ, show x + m + (len - m) = x + (len + 1) - 1 by omega]
        rfl
      · intro _
        rcases Nat.lt_or_eq_of_le g1 with hlt | heq
        · exact g8 hlt
        · rw [g7 heq]

theorem runValid_spec (h : BackOK F T sa s kept) (hv : PhiValid T sa F.phi) {r : PhiRun} {k L x a len0 v : Nat} {ok : Bool} {fuel : Nat} (hk : PieceOK T sa r k)
    (hfuel : 2 ≤ fuel) (hx1 : 1 ≤ x) (hap : a ≤ r.start) (hrl : r.stop ≤ a + len0) (hxn : x + len0 ≤ T.length)
    (ht : Trav T sa kept L x a len0) (hp : Pend T sa s kept (x + (r.stop - a) - 1) v ok) :
    ∃ m r' v' ok', m ≤ r.stop - r.start ∧
      F.runValid (fun y => cmod (y + 1 + L) F.seqSize) fuel r v ok
        = some (down sa (x + (r.start - a) + m) (r.stop - r.start - m), r', v', ok') ∧
      r'.start = r.start ∧ r'.stop = r.start + m ∧ r'.c = r.c ∧
      (∀ y, r.start ≤ y → y < r.start + m → ¬ kept y) ∧
      Pend T sa s kept (x + (r.start - a) + m - 1) v' ok' := by
  have hne := hk.ne
  have hn : r.stop - r.start ≤ T.length := by omega
  obtain ⟨fuel, rfl⟩ : ∃ g, fuel = g + 1 + 1 := ⟨fuel - 2, by omega⟩
  obtain ⟨m, r', v', ok', g1, g2, g3, g4, g5, g6, g7, g8, g9, g10, g11⟩ :=
    reportValid_spec h hv (r.stop - r.start) F.seqSize r (x + (r.start - a)) v ok (by rw [h.seq]; omega) (by omega) (by omega) (by omega)
      (by rw [show x + (r.start - a) + (r.stop - r.start) = x + (r.stop - a) by omega]; exact hp)
  rw [RangePhi.runValid, g2]
  simp only [Option.bind_eq_bind, Option.bind_some]
  by_cases hm0 : m = 0
  · subst hm0
    refine ⟨0, r', v', ok', by omega, ?_, g3, g4, g5, by omega, g11⟩
    simp [h.empty, g3, g4]
  · have hok : ok' = false := by tauto
    subst hok
    have hemp : F.isRunEmpty r' = false := by simp [h.empty, g3, g4]; omega
    simp only [hemp, Bool.false_eq_true, if_false]
    rcases Nat.lt_or_eq_of_le g1 with hlt | heq
    · -- something was reported: the run end is gone
      simp only [h.noSample r' (g8 hlt), Option.bind_some]
      refine ⟨m, r', v', false, g1, rfl, g3, g4, g5, fun y h1 h2 hy => ?_, g11⟩
      have := (kept_piece h hk hy h1 (by omega)).2.2
      omega
    · have hr' := g7 heq
      subst hr'
      subst heq
      -- nothing reported yet: either the last position is sampled, or no position of the piece is a kept tail
      have hcase : (F.getSample r' = some (some (pv T sa (r'.stop - 1)))) ∨
          (F.getSample r' = some none ∧ ∀ y, r'.start ≤ y → y < r'.stop → ¬ kept y) := by
        have hklt := hk.lt
        cases hend : r'.isRunEnd with
        | false =>
          right
          refine ⟨h.noSample r' hend, fun y h1 h2 hy => ?_⟩
          have := (kept_piece h hk hy h1 h2).2.1
          rw [hend] at this; cases this
        | true =>
          have hst : r'.stop = tl T sa k + 1 := by
            have := hk.isEnd; rw [hend] at this; exact of_decide_eq_true this.symm
          have hr := hk.rnk
          rcases h.sample r' hend (by rw [hr]; exact hklt) with ⟨f1, f2⟩ | ⟨f1, f2⟩
          · left
            rw [hr] at f2
            rw [f2, show r'.stop - 1 = tl T sa k by omega]
          · right
            rw [hr] at f1
            refine ⟨f2, fun y h1 h2 hy => ?_⟩
            have := (kept_piece h hk hy h1 h2).1
            subst this; exact f1 hy
      rcases hcase with hs | ⟨hs, hno⟩
      · have hval : (pv T sa (r'.stop - 1) + 1 + L) % T.length = saAt sa (x + (r'.stop - a) - 1) := by
          refine sample_value h.isSA (by omega) ?_
          have := (ht (r'.stop - a - 1) (by omega)).1
          rw [show x + (r'.stop - a) - 1 = x + (r'.stop - a - 1) by omega, this]; omega
        simp only [hs, Option.bind_some, cmod, h.seq, show T.length ≠ 0 by omega, if_false, hval]
        obtain ⟨m2, r2, v2, ok2, f1, f2, f3, f4, f5, f6, f7, f8, f9, f10, f11⟩ :=
          reportValid_spec h hv (r'.stop - r'.start) F.seqSize r' (x + (r'.start - a)) (saAt sa (x + (r'.stop - a) - 1)) true
            (by rw [h.seq]; omega) (by omega) (by omega) (by omega)
            (pend_of_eq (by rw [show x + (r'.start - a) + (r'.stop - r'.start) = x + (r'.stop - a) by omega]))
        have hm2 := f10 (by omega) rfl
        rw [RangePhi.runValid]
        rw [h.seq] at f2
        simp only [h.seq, f2, Option.bind_eq_bind, Option.bind_some]
        refine ⟨m2, r2, v2, ok2, by omega, ?_, f3, f4, f5, fun y h1 h2 hy => ?_, f11⟩
        · by_cases h0 : m2 = 0
          · subst h0
            have : F.isRunEmpty r2 = true := by simp [h.empty, f3, f4]
            simp [this, down]
          · have hok2 : ok2 = false := by tauto
            have : F.isRunEmpty r2 = false := by simp [h.empty, f3, f4]; omega
            subst hok2
            simp [this, down, h.noSample r2 (f8 hm2)]
        · have := (kept_piece h hk hy h1 (by omega)).2.2
          omega
      · simp only [hs, Option.bind_some]
        exact ⟨r'.stop - r'.start, r', v', false, Nat.le_refl _, rfl, rfl, by omega, rfl,
          fun y h1 h2 => hno y h1 (by omega), g11⟩

/-- specification of `compute` at level `L` -/
def ComputeSpecV (T sa : List Nat) (s : Nat) (kept : Nat → Prop) (L : Nat)
    (f : PhiRun → Nat → Bool → Option (List Nat × Nat × Bool)) : Prop :=
  ∀ (r : PhiRun) (x v : Nat) (ok : Bool), r.start < r.stop → 1 ≤ x → x + (r.stop - r.start) ≤ T.length →
    Trav T sa kept L x r.start (r.stop - r.start) → Pend T sa s kept (x + (r.stop - r.start) - 1) v ok →
    ∃ v' ok', f r v ok = some (down sa x (r.stop - r.start), v', ok') ∧ Pend T sa s kept (x - 1) v' ok'

theorem phiWhileV_spec (h : BackOK F T sa s kept) (hv : PhiValid T sa F.phi) (len : Nat) : ∀ (fuel : Nat) (r : PhiRun) (x v : Nat) (ok : Bool), len < fuel →
    r.stop - r.start = len + 1 → r.start < r.stop → 1 ≤ x → x + (len + 1) ≤ T.length →
    (∀ j, j < len + 1 → ∀ e, e < s → ¬ kept (lfIt T sa e (x + j))) → Pend T sa s kept (x + len) v ok →
    ∃ v' ok', F.phiWhileV fuel r v = some (down sa x (len + 1), v', ok') ∧ Pend T sa s kept (x - 1) v' ok' := by
  induction len with
  | zero =>
    intro fuel r x v ok hf hl hne hx hxn hno hp
    obtain ⟨fuel, rfl⟩ : ∃ g, fuel = g + 1 := ⟨fuel - 1, by omega⟩
    have hve := hp.2 (hno 0 (by omega))
    subst hve
    obtain ⟨w, ok2, e1, e2⟩ := pend_phi h.phi hv (i := x) hx (by omega)
    refine ⟨w, ok2, ?_, e2⟩
    rw [RangePhi.phiWhileV]
    simp only [h.update, updateRun_eq r hne, Option.bind_eq_bind, Option.bind_some, Nat.add_zero, e1, h.empty,
      show ¬ r.start < r.stop - 1 by omega, decide_false, Bool.not_false, if_true]
    rfl
  | succ len ih =>
    intro fuel r x v ok hf hl hne hx hxn hno hp
    obtain ⟨fuel, rfl⟩ : ∃ g, fuel = g + 1 := ⟨fuel - 1, by omega⟩
    have hve := hp.2 (hno (len+1) (by omega))
    subst hve
    obtain ⟨w, ok2, e1, e2⟩ := pend_phi h.phi hv (i := x + (len + 1)) (by omega) (by omega)
    obtain ⟨v', ok', f1, f2⟩ := ih fuel { r with stop := r.stop - 1, isRunEnd := false } x w ok2 (by omega) (by dsimp only; omega)
      (by dsimp only; omega) hx (by omega) (fun j hj => hno j (by omega)) e2
    refine ⟨v', ok', ?_, f2⟩
    rw [RangePhi.phiWhileV]
    simp only [h.update, updateRun_eq r hne, Option.bind_eq_bind, Option.bind_some, e1, h.empty,
      show r.start < r.stop - 1 by omega, decide_true, Bool.not_true, Bool.false_eq_true, if_false, f1, down_succ x (len + 1)]
    rfl

theorem backRunsV_spec (h : BackOK F T sa s kept) (hv : PhiValid T sa F.phi) {L : Nat} {next : PhiRun → Nat → Bool → Option (List Nat × Nat × Bool)}
    (hnext : ComputeSpecV T sa s kept (L+1) next) (runs : List PhiRun) :
    ∀ (a b x v : Nat) (ok : Bool), PiecesRev T sa a b runs → 1 ≤ x → x + (b - a) ≤ T.length → Trav T sa kept L x a (b - a) →
      Pend T sa s kept (x + (b - a) - 1) v ok →
      ∃ v' ok', F.backRunsV L next runs v ok = some (down sa x (b - a), v', ok') ∧ Pend T sa s kept (x - 1) v' ok' := by
  induction runs with
  | nil =>
    intro a b x v ok hpc hx hxn ht hp
    have : a = b := hpc
    subst this
    refine ⟨v, ok, ?_, by rw [Nat.sub_self, Nat.add_zero] at hp; exact hp⟩
    simp [RangePhi.backRunsV, down]
  | cons r rest ih =>
    rintro a b x v ok ⟨rfl, ⟨k, hk⟩, hpc⟩ hx hxn ht hp
    have hle := hpc.le
    have hne := hk.ne
    have hlo := hk.lo
    have hhi := hk.hi
    have hklt := hk.lt
    obtain ⟨m, r', w, okw, g1, g2, g3, g4, g5, g6, g7⟩ :=
      runValid_spec h hv hk (fuel := F.seqSize + 2) (by omega) hx hle (show r.stop ≤ a + (r.stop - a) by omega) hxn ht hp
    have hdown : down sa (x + (r.start - a) + m) (r.stop - r.start - m) ++ down sa (x + (r.start - a)) m ++ down sa x (r.start - a)
        = down sa x (r.stop - a) := by
      rw [← down_add, ← down_add]
      congr 1; omega
    rw [RangePhi.backRunsV, g2]
    simp only [Option.bind_eq_bind, Option.bind_some]
    by_cases hm : m = 0
    · subst hm
      have hemp : F.isRunEmpty r' = true := by simp [h.empty, g3, g4]
      rw [Nat.add_zero] at g7
      obtain ⟨v2, ok2, f1, f2⟩ := ih a r.start x w okw hpc hx (by omega) (fun j hj => ht j (by omega))
        (by rw [show x + (r.start - a) - 1 = x + (r.start - a) - 1 from rfl]; exact g7)
      refine ⟨v2, ok2, ?_, f2⟩
      simp only [hemp, if_true, Option.pure_def, Option.bind_some, f1]
      rw [← hdown]; rfl
    · have hemp : F.isRunEmpty r' = false := by simp [h.empty, g3, g4]; omega
      obtain ⟨q, q1, q2, q3⟩ := h.nav r' k hklt (by rw [g5]; exact hk.c) (by rw [g3]; exact hlo) (by omega) (by omega)
      have hlen : q.stop - q.start = m := by omega
      have htr := trav_step h ht hklt hlo (m := m) (by omega) hle (by omega) g6
      obtain ⟨v2, ok2, f1, f2⟩ := hnext q (x + (r.start - a)) w okw (by omega) (by omega) (by omega)
        (by rw [hlen, q2, g3]; exact htr) (by rw [hlen]; exact g7)
      rw [hlen] at f1
      obtain ⟨v3, ok3, f3, f4⟩ := ih a r.start x v2 ok2 hpc hx (by omega) (fun j hj => ht j (by omega)) f2
      refine ⟨v3, ok3, ?_, f4⟩
      simp only [hemp, Bool.false_eq_true, if_false, q1, Option.bind_some, f1, f3]
      rw [← hdown]; rfl

theorem backComputeV_spec (h : BackOK F T sa s kept) (hv : PhiValid T sa F.phi) (depth : Nat) : ∀ L, s + 1 ≤ L + depth → 1 ≤ depth →
    ComputeSpecV T sa s kept L (F.backComputeV depth L) := by
  induction depth with
  | zero => intro L _ h1; omega
  | succ depth ih =>
    intro L hL _ r x v ok hne hx hxn ht hp
    rw [RangePhi.backComputeV]
    by_cases hs : F.samplingSize ≤ L
    · rw [if_pos hs]
      have := phiWhileV_spec h hv (r.stop - r.start - 1) F.seqSize r x v ok (by rw [h.seq]; omega) (by omega) hne hx (by omega)
        (fun j hj e he => (ht j (by omega)).2 e (by rw [h.rate] at hs; omega))
        (by rw [show x + (r.stop - r.start - 1) = x + (r.stop - r.start) - 1 by omega]; exact hp)
      rw [show r.stop - r.start - 1 + 1 = r.stop - r.start by omega] at this
      exact this
    · rw [if_neg hs]
      rw [h.rate] at hs
      have hst : r.stop ≤ T.length := by
        have h1 := (ht (r.stop - r.start - 1) (by omega)).1
        have h2 := lfIt_lt (T := T) h.isSA L (i := x + (r.stop - r.start - 1)) (by omega)
        omega
      obtain ⟨l, e1, e2⟩ := h.split r hne hst
      simp only [e1, Option.bind_eq_bind, Option.bind_some]
      exact backRunsV_spec h hv (ih (L+1) (by omega) (by omega)) l.reverse r.start r.stop x v ok e2 hx hxn ht hp

theorem backRangeV_spec (h : BackOK F T sa s kept) (hv : PhiValid T sa F.phi) {l : List PhiRun} {a b : Nat} (ha : 1 ≤ a) (hab : a < b) (hb : b < T.length)
    (hp : PiecesRev T sa a b l.reverse) : F.backRangeV (some l) (saAt sa b) = some (down sa a (b - a)) := by
  unfold RangePhi.backRangeV
  obtain ⟨v, ok, e1, e2⟩ := pend_phi h.phi hv (i := b) (by omega) hb
  obtain ⟨v', ok', f1, f2⟩ := backRunsV_spec h hv (backComputeV_spec h hv (F.samplingSize + 1) 1 (by rw [h.rate]; omega) (by omega)) l.reverse
    a b a v ok hp ha (by omega) (trav_zero a (b - a)) (by rw [show a + (b - a) = b by omega]; exact e2)
  simp only [e1, Option.bind_eq_bind, Option.bind_some, f1]
  rfl

end
end Sri
