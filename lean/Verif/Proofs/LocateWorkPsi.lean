import Verif.Proofs.LocateWorkRle
import Verif.Proofs.PsiRuns
/-! # The operations of a Locate query, part 3: the queries on the runs of psi -/
namespace Sri
set_option autoImplicit false

open Cost

instance Cost.lawful : LawfulMonad Cost := LawfulMonad.mk' (m := Cost)
  (id_map := by
    intro α x; change andThen x (fun a => ret a) = x
    cases x with
    | none => rfl
    | some p => rfl)
  (pure_bind := by
    intro α β a f; change andThen (ret a) f = f a
    simp only [andThen, ret]
    cases h : f a with
    | none => rfl
    | some p => simp; rfl)
  (bind_assoc := by
    intro α β γ x f g
    change andThen (andThen x f) g = andThen x (fun a => andThen (f a) g)
    cases x with
    | none => rfl
    | some p =>
      obtain ⟨a, c⟩ := p
      simp only [andThen]
      cases f a with
      | none => rfl
      | some q =>
        obtain ⟨b, d⟩ := q
        simp only
        cases g b with
        | none => rfl
        | some r => simp [Nat.add_assoc]; rfl)

theorem val_mapM {α β : Type} {f : α → Cost β} {g : α → Option β} (l : List α) (h : ∀ a ∈ l, (f a).val = g a) : (l.mapM f).val = l.mapM g := by
  induction l with
  | nil => rfl
  | cons a l ih =>
    rw [List.mapM_cons, List.mapM_cons]
    exact val_bind_eq (h a (List.mem_cons_self ..)) fun _ => val_bind_eq (ih fun b hb => h b (List.mem_cons_of_mem _ hb)) fun _ => rfl

/-- no result, whatever the operations -/
theorem bnd_of_val_none {α : Type} {x : Cost α} {k : Nat} (h : x.val = none) : x.Bnd k := by
  intro a c e
  rw [e] at h; cases h

theorem le_of_val_none {α : Type} {x : Cost α} {P : α → Nat → Prop} (h : x.val = none) : x.Le P := by
  intro a c e
  rw [e] at h; cases h

theorem PsiCoreRLE.selectLoopW_val (E : EncVector) (n t f : Nat) (st : RunOps) (x r : Nat) :
    (selectLoopW E n t f st x r).val = selectLoop E n t f st x r := by
  induction f generalizing st x r with
  | zero => rfl
  | succ f ih =>
    rw [selectLoopW, selectLoop]
    refine val_bind_eq (RunOps.nextStartW_val _ _ _ _) ?_
    rintro ⟨s, st⟩
    refine val_bind_eq (RunOps.nextEndW_val _ _ _ _) ?_
    rintro ⟨e, st⟩
    exact val_bind_eq (val_free _) fun d => val_ite (ih _ _ _) rfl

theorem PsiCoreRLE.softLoopW_val (E : EncVector) (v left ptr s e runs : Nat) :
    (softLoopW E v left ptr s e runs).val = softLoop E v left ptr s e runs := by
  induction left generalizing ptr s e runs with
  | zero => rfl
  | succ left ih =>
    rw [softLoopW, softLoop]
    refine val_ite (val_bind_eq (val_call _) ?_) rfl
    rintro ⟨g, p⟩
    refine val_ite (val_bind_eq (val_call _) ?_) rfl
    rintro ⟨l, p⟩
    exact ih _ _ _ _

theorem PsiCoreRLE.softLoopW_bnd (E : EncVector) (v left ptr s e runs : Nat) : (softLoopW E v left ptr s e runs).Bnd (2 * left) := by
  induction left generalizing ptr s e runs with
  | zero => exact bnd_ret _
  | succ left ih =>
    rw [softLoopW]
    refine bnd_ite ((bnd_bind (m := 1 + 2 * left) (bnd_call _) ?_).up (by omega)) ((bnd_pure _).up (by omega))
    rintro ⟨g, p⟩
    refine bnd_ite ((bnd_bind (m := 2 * left) (bnd_call _) ?_).up (by omega)) ((bnd_pure _).up (by omega))
    rintro ⟨l, p⟩
    exact ih _ _ _ _

theorem PsiCoreRLE.splitSkipW_val (E : EncVector) (n w f : Nat) (st : RunOps) (s e x : Nat) :
    (splitSkipW E n w f st s e x).val = splitSkip E n w f st s e x := by
  induction f generalizing st s e x with
  | zero => rfl
  | succ f ih =>
    rw [splitSkipW, splitSkip]
    refine val_ite (val_bind_eq (RunOps.nextEndW_val _ _ _ _) ?_) rfl
    rintro ⟨e, st⟩
    refine val_bind_eq (RunOps.nextStartW_val _ _ _ _) ?_
    rintro ⟨s, st⟩
    exact ih _ _ _ _

theorem PsiCoreRLE.splitReportW_val (E : EncVector) (n hi c f : Nat) (st : RunOps) (a s e x : Nat) :
    (splitReportW E n hi c f st a s e x).val = splitReport E n hi c f st a s e x := by
  induction f generalizing st a s e x with
  | zero => rfl
  | succ f ih =>
    rw [splitReportW, splitReport]
    refine val_ite (val_bind_eq (val_free _) fun k => val_bind_eq (RunOps.nextEndW_val _ _ _ _) ?_)
      (val_ite (val_bind_eq (val_free _) fun _ => rfl) rfl)
    rintro ⟨e, st⟩
    refine val_bind_eq (RunOps.nextStartW_val _ _ _ _) ?_
    rintro ⟨s, st⟩
    exact val_bind_eq (ih _ _ _ _ _) fun _ => rfl

/-- two operations per run reported -/
theorem PsiCoreRLE.splitReportW_le (E : EncVector) (n hi c f : Nat) (st : RunOps) (a s e x : Nat) :
    (splitReportW E n hi c f st a s e x).Le (fun l k => k ≤ 2 * l.length) := by
  induction f generalizing st a s e x with
  | zero => exact le_none
  | succ f ih =>
    rw [splitReportW]
    refine le_ite (fun _ => ?_) (fun _ => le_ite (fun _ => ?_) (fun _ => le_pure (Nat.zero_le _)))
    · refine le_bind (bnd_free _) fun k c0 h0 => le_bind (RunOps.nextEndW_le _ _ _ _) ?_
      rintro ⟨e, st⟩ c1 h1
      refine le_bind (RunOps.nextStartW_le _ _ _ _) ?_
      rintro ⟨s, st⟩ c2 h2
      refine le_bind (ih _ _ _ _ _) fun l c3 h3 => le_pure ?_
      rw [List.length_cons]; omega
    · exact le_bind (bnd_free _) fun k c0 h0 => le_pure (by simp only [List.length_cons, List.length_nil]; omega)

theorem PsiCoreRLE.forwardLoopW_val (E : EncVector) (n hi c f : Nat) (st : RunOps) (a : Nat) (run : RunSel) :
    (forwardLoopW E n hi c f st a run).val = forwardLoop E n hi c f st a run := by
  induction f generalizing st a run with
  | zero => rfl
  | succ f ih =>
    rw [forwardLoopW, forwardLoop]
    refine val_ite (val_bind_eq (RunOps.nextStartW_val _ _ _ _) ?_) (val_bind_eq (val_free _) fun _ => rfl)
    rintro ⟨e, st⟩
    refine val_bind_eq (RunOps.nextEndW_val _ _ _ _) ?_
    rintro ⟨s, st⟩
    exact val_bind_eq (val_free _) fun _ => val_bind_eq (ih _ _ _) fun _ => rfl

/-- two operations per run reported after the first -/
theorem PsiCoreRLE.forwardLoopW_le (E : EncVector) (n hi c f : Nat) (st : RunOps) (a : Nat) (run : RunSel) :
    (forwardLoopW E n hi c f st a run).Le (fun l k => k + 2 ≤ 2 * l.length) := by
  induction f generalizing st a run with
  | zero => exact le_none
  | succ f ih =>
    rw [forwardLoopW]
    refine le_ite (fun _ => le_bind (RunOps.nextStartW_le _ _ _ _) ?_) (fun _ => le_bind (bnd_free _) fun k c0 h0 =>
      le_pure (by simp only [List.length_cons, List.length_nil]; omega))
    rintro ⟨e, st⟩ c1 h1
    refine le_bind (RunOps.nextEndW_le _ _ _ _) ?_
    rintro ⟨s, st⟩ c2 h2
    refine le_bind (bnd_free _) fun d c0 h0 => le_bind (ih _ _ _) fun l c3 h3 => le_pure ?_
    rw [List.length_cons]; omega

namespace PartOK
variable {E : EncVector} {ranks : List Nat} {rs : List (Nat × Nat)} {n h : Nat}

/-- the sampled ranks, read one at a time -/
theorem ranks_get (hp : PartOK E ranks rs n h) {i : Nat} (hi : i < ranks.length) : ranks[i]? = some (rk rs ((i+1) * h)) := by
  have h1 := hp.rlen.1
  have h2 : (i+1) * h ≤ ranks.length * h := Nat.mul_le_mul_right _ hi
  have := hp.rget (i+1) (by omega) (by omega)
  rwa [Nat.add_sub_cancel] at this

theorem ranks_length (hp : PartOK E ranks rs n h) : ranks.length ≤ rs.length := by
  have h1 := hp.rlen.1
  have := Nat.le_mul_of_pos_right ranks.length hp.hpos
  omega

theorem ranks_search (hp : PartOK E ranks rs n h) (t : Nat) :
    (binarySearchW (fun i => ranks[i]?) t ranks.length 0 ranks.length).val = some (upperBound ranks t) := by
  obtain ⟨k, e, k1, k2, k3⟩ := binarySearchW_val (get := fun i => ranks[i]?) (L := fun i => rk rs ((i+1) * h)) (m := ranks.length) (v := t)
    (fun i hi => hp.ranks_get hi) (fun i j hij hj => hp.rk_mono (Nat.mul_le_mul_right _ (by omega))) ranks.length 0 ranks.length
    (Nat.le_refl _) (by omega) (by intro i hi; omega) (by intro i h1 h2; omega)
  rw [e]
  congr 1
  obtain ⟨u1, u2, u3⟩ := upperBound_spec ranks t
  rcases Nat.lt_trichotomy k (upperBound ranks t) with hlt | heq | hgt
  · obtain ⟨y, y1, y2⟩ := u2 k hlt
    rw [hp.ranks_get (by omega)] at y1
    have := k3 k (Nat.le_refl _) (by omega)
    have := Option.some.inj y1
    omega
  · exact heq
  · have hy := hp.ranks_get (show upperBound ranks t < ranks.length by omega)
    have := k2 _ hgt
    have := u3 _ hy
    omega

theorem selectCoreW_val (hp : PartOK E ranks rs n h) (rnk : Nat) :
    (PsiCoreRLE.selectCoreW E ranks n rnk).val = PsiCoreRLE.selectCore E ranks n rnk := by
  rw [PsiCoreRLE.selectCoreW, PsiCoreRLE.selectCore]
  refine val_bind_eq (val_free _) fun t => ?_
  rw [val_bind, hp.ranks_search t]
  simp only [Option.bind_eq_bind, Option.bind_some]
  have hr : (if upperBound ranks t ≠ 0 then readW ranks (upperBound ranks t - 1) else Cost.ret 0).val
      = some (if upperBound ranks t ≠ 0 then ranks.getD (upperBound ranks t - 1) 0 else 0) := by
    split
    · rw [readW_val, List.getD_eq_getElem?_getD, hp.ranks_get (by have := (upperBound_spec ranks t).1; omega)]; rfl
    · rfl
  rw [val_bind, hr]
  simp only [Option.bind_eq_bind, Option.bind_some]
  exact val_bind_eq (val_call _) fun _ => PsiCoreRLE.selectLoopW_val _ _ _ _ _ _ _

/-- past the last value there is no run -/
theorem selectLoop_end (hp : PartOK E ranks rs n h) {t : Nat} (ht : rk rs rs.length ≤ t) (f : Nat) (st : RunOps) (k x : Nat)
    (ha : At E rs h st k) (hx : st.left ≠ 0 → x = rE rs n (k-1)) : PsiCoreRLE.selectLoop E n t f st x (rk rs k) = none := by
  induction f generalizing st k x with
  | zero => rfl
  | succ f ih =>
    obtain ⟨st1, st2, n1, _, n3, n4, _⟩ := hp.next (x := x) ha hx
    rw [PsiCoreRLE.selectLoop]
    have hSE := hp.good.S_le_E k
    simp only [n1, n3, csub, if_pos hSE, Option.bind_eq_bind, Option.bind_some]
    have hle := ha.le
    rcases Nat.lt_or_ge k rs.length with hk | hk
    · rw [← rk_succ rs n hk, if_pos (by have := hp.rk_mono (show k + 1 ≤ rs.length by omega); omega)]
      rw [Nat.min_eq_left (by omega)] at n4
      exact ih st2 (k+1) _ n4 (by intro _; rfl)
    · obtain rfl : k = rs.length := by omega
      rw [rS_ge (Nat.le_refl _), rE_ge (Nat.le_refl _), Nat.sub_self, Nat.add_zero, if_pos ht]
      rw [Nat.min_eq_right (by omega)] at n4
      exact ih st2 rs.length _ n4 (by
        intro hc
        have := n4.lay.1
        omega)

/-- two operations per run -/
theorem selectLoopW_bnd (hp : PartOK E ranks rs n h) {t k1 : Nat} (hk1 : k1 < rs.length) (h2 : t < rk rs (k1+1))
    (f : Nat) (st : RunOps) (k x : Nat) (hk : k ≤ k1) (ha : At E rs h st k) (hx : st.left ≠ 0 → x = rE rs n (k-1)) :
    (PsiCoreRLE.selectLoopW E n t f st x (rk rs k)).Bnd (2 * (k1 - k + 1)) := by
  induction f generalizing st k x with
  | zero => exact le_none
  | succ f ih =>
    obtain ⟨st1, m1, m2⟩ := hp.start (x := x) ha (by omega) hx
    obtain ⟨st2, m3, m4, m5⟩ := hp.stop m2
    rw [PsiCoreRLE.selectLoopW]
    refine le_bind ((RunOps.nextStartW_le _ _ _ _).withVal ((RunOps.nextStartW_val _ _ _ _).trans m1)) ?_
    rintro _ c1 ⟨rfl, g1⟩
    refine le_bind ((RunOps.nextEndW_le _ _ _ _).withVal ((RunOps.nextEndW_val _ _ _ _).trans m3)) ?_
    rintro _ c2 ⟨rfl, g2⟩
    refine le_bind (P := fun d c => c = 0 ∧ d = rE rs n k - rS rs n k) (le_free fun d e => ⟨rfl, ?_⟩) ?_
    · rw [csub, if_pos (hp.good.S_le_E k)] at e; exact (Option.some.inj e).symm
    rintro _ _ ⟨rfl, rfl⟩
    rw [← rk_succ rs n (by omega)]
    refine le_ite (fun hc => ?_) (fun _ => le_pure (by omega))
    have : k ≠ k1 := by rintro rfl; omega
    exact (ih st2 (k+1) _ (by omega) m4 (by intro _; rfl)).mono fun _ c hc => by omega

theorem selectCoreW_bnd (hp : PartOK E ranks rs n h) (rnk : Nat) :
    (PsiCoreRLE.selectCoreW E ranks n rnk).Bnd (Nat.log2 rs.length + 3 + 2 * h) := by
  rw [PsiCoreRLE.selectCoreW]
  refine le_bind (bnd_free _) fun t c0 h0 => ?_
  obtain ⟨u1, u2, u3⟩ := upperBound_spec ranks t
  have hs : (binarySearchW (fun i => ranks[i]?) t ranks.length 0 ranks.length).Le (fun _ c => c ≤ Nat.log2 rs.length + 1) := by
    refine (binarySearchW_le _ _ _ _ _).mono fun _ c hc => ?_
    split at hc
    · omega
    · have := log2_mono hp.ranks_length; omega
  refine le_bind (hs.withVal (hp.ranks_search t)) ?_
  rintro ub c1 ⟨hub, h1⟩
  rw [← hub] at u1 u2 u3
  obtain ⟨r1, r2⟩ := hp.rlen
  have hle : ub * h ≤ ranks.length * h := Nat.mul_le_mul_right _ u1
  have hub1 : ub * h < rs.length := by omega
  have hr : (if ub ≠ 0 then readW ranks (ub - 1) else Cost.ret 0).Le (fun x c => c ≤ 1 ∧ x = rk rs (ub * h)) := by
    refine le_ite (fun h0 => le_call fun x e => ⟨Nat.le_refl _, ?_⟩) (fun h0 => le_ret ⟨Nat.zero_le _, ?_⟩)
    · rw [hp.rget ub (by omega) hub1] at e; exact (Option.some.inj e).symm
    · obtain rfl : ub = 0 := by omega
      rw [Nat.zero_mul, rk_zero]
  refine le_bind hr ?_
  rintro _ c2 ⟨h2, rfl⟩
  obtain ⟨st, s1, s2, s3⟩ := hp.init hub1
  refine le_bind (P := fun x c => x = st ∧ c = 1) (le_call fun x e => ⟨?_, rfl⟩) ?_
  · rw [s1] at e; exact (Option.some.inj e).symm
  rintro st _ ⟨rfl, rfl⟩
  have hx : st.left ≠ 0 → 0 = rE rs n (ub * h - 1) := fun hc => absurd s3 hc
  rcases Nat.lt_or_ge t (rk rs rs.length) with ht | ht
  · obtain ⟨K, K1, K2, K3⟩ : ∃ K, K < rs.length ∧ t < rk rs (K+1) ∧ ub * h ≤ K ∧ K + 1 ≤ (ub + 1) * h := by
      have hh := hp.hpos
      rcases Nat.lt_or_ge ub ranks.length with hlt | hge
      · have hy := hp.ranks_get hlt
        have h3 := u3 _ hy
        have h4 : (ub+1) * h ≤ ranks.length * h := Nat.mul_le_mul_right _ hlt
        have h5 : (ub+1) * h = ub * h + h := by rw [Nat.add_mul, Nat.one_mul]
        refine ⟨(ub+1) * h - 1, by omega, ?_, by omega, by omega⟩
        rw [show (ub+1) * h - 1 + 1 = (ub+1) * h by omega]; exact h3
      · obtain rfl : ub = ranks.length := by omega
        exact ⟨rs.length - 1, by omega, by rw [show rs.length - 1 + 1 = rs.length by omega]; exact ht, by omega, by omega⟩
    have h5 : (ub+1) * h = ub * h + h := by rw [Nat.add_mul, Nat.one_mul]
    exact (hp.selectLoopW_bnd K1 K2 (E.size + 1) st _ 0 K3.1 s2 hx).mono fun _ c hc => by omega
  · refine Le.mono (P := fun _ _ => False) ?_ (fun _ _ hf => hf.elim)
    intro a c e
    have := (PsiCoreRLE.selectLoopW_val E n t (E.size + 1) st 0 (rk rs (ub * h))).trans (hp.selectLoop_end ht _ st _ 0 s2 hx)
    rw [e] at this; cases this

/-! ## the runs of a range -/

theorem splitSkip_end (hp : PartOK E ranks rs n h) {w : Nat} (hw : n ≤ w) (f : Nat) (st : RunOps) (j s e : Nat) (he : e ≤ n)
    (hr : Ready E rs h st j) : PsiCoreRLE.splitSkip E n w f st s e (rS rs n j) = none := by
  induction f generalizing st j s e with
  | zero => rfl
  | succ f ih =>
    rw [PsiCoreRLE.splitSkip, if_pos (by omega)]
    obtain ⟨st1, st2, m1, m2, m3⟩ := hp.ready_next hr
    simp only [m1, m2, Option.bind_eq_bind, Option.bind_some]
    rw [← rS_min (j+1)]
    exact ih _ _ _ _ (hp.good.E_le j) m3

/-- two operations per run -/
theorem splitSkipW_bnd (hp : PartOK E ranks rs n h) {w k1 : Nat} (hk1 : k1 ≤ rs.length) (hw : w < rE rs n k1) (f : Nat) (st : RunOps) (k : Nat)
    (hk : k ≤ k1) (hr : Ready E rs h st (min (k+1) rs.length)) :
    (PsiCoreRLE.splitSkipW E n w f st (rS rs n k) (rE rs n k) (rS rs n (k+1))).Bnd (2 * (k1 - k)) := by
  induction f generalizing st k with
  | zero => exact le_none
  | succ f ih =>
    rw [PsiCoreRLE.splitSkipW]
    refine le_ite (fun hc => ?_) (fun _ => le_pure (Nat.zero_le _))
    have hlt : k < k1 := by
      rcases Nat.lt_or_eq_of_le hk with h' | h'
      · exact h'
      · subst h'; omega
    rw [Nat.min_eq_left (by omega)] at hr
    obtain ⟨st1, st2, m1, m2, m3⟩ := hp.ready_next hr
    refine le_bind ((RunOps.nextEndW_le _ _ _ _).withVal ((RunOps.nextEndW_val _ _ _ _).trans m1)) ?_
    rintro _ c1 ⟨rfl, g1⟩
    refine le_bind ((RunOps.nextStartW_le _ _ _ _).withVal ((RunOps.nextStartW_val _ _ _ _).trans m2)) ?_
    rintro _ c2 ⟨rfl, g2⟩
    exact (ih st2 (k+1) (by omega) m3).mono fun _ c hc => by omega

theorem splitInRunsCW_val {P : PsiCoreRLE} {c : Nat} (hP : P.parts[c]? = some (E, ranks)) (hp : PartOK E ranks rs n h) (lo hi : Nat) :
    (P.splitInRunsCW c lo hi).val = P.splitInRunsC c lo hi := by
  rw [PsiCoreRLE.splitInRunsCW, PsiCoreRLE.splitInRunsC, hP]
  rw [val_bind, val_free]
  simp only [Option.bind_eq_bind, Option.bind_some]
  refine val_bind_eq (hp.computeUpperBoundW_val lo) fun ub => val_bind_eq (val_call _) fun st => val_bind_eq (RunOps.nextStartW_val _ _ _ _) ?_
  rintro ⟨s, st⟩
  refine val_bind_eq (RunOps.nextEndW_val _ _ _ _) ?_
  rintro ⟨e, st⟩
  refine val_bind_eq (RunOps.nextStartW_val _ _ _ _) ?_
  rintro ⟨x, st⟩
  refine val_bind_eq (PsiCoreRLE.splitSkipW_val _ _ _ _ _ _ _ _) ?_
  rintro ⟨s, e, x, st⟩
  exact PsiCoreRLE.splitReportW_val _ _ _ _ _ _ _ _ _ _

theorem splitInRunsCW_le {P : PsiCoreRLE} {c : Nat} (hP : P.parts[c]? = some (E, ranks)) (hn : P.n = n) (hp : PartOK E ranks rs n h) (lo hi : Nat) :
    (P.splitInRunsCW c lo hi).Le (fun l k => k ≤ Nat.log2 rs.length + 5 + 2 * h + 2 * l.length) := by
  rw [PsiCoreRLE.splitInRunsCW, hP, hn]
  refine le_bind (P := fun x c => c = 0 ∧ x = (E, ranks)) (le_free fun x e => ⟨rfl, (Option.some.inj e).symm⟩) ?_
  rintro _ _ ⟨rfl, rfl⟩
  have hg := hp.good
  obtain ⟨ub, b1, b2, b3, b4, b5, b6⟩ := hp.block lo
  refine le_bind ((hp.computeUpperBoundW_le lo).withVal ((hp.computeUpperBoundW_val lo).trans b1)) ?_
  rintro ub c1 ⟨rfl, h1⟩
  obtain ⟨st, s1, s2, s3⟩ := hp.init b2
  refine le_bind (P := fun x c => x = st ∧ c = 1) (le_call fun x e => ⟨?_, rfl⟩) ?_
  · rw [s1] at e; exact (Option.some.inj e).symm
  rintro _ _ ⟨rfl, rfl⟩
  obtain ⟨st1, m1, m2⟩ := hp.ready_start (x := 0) s2 (by intro hc; exact absurd s3 hc)
  obtain ⟨st2, st3, m3, m4, m5⟩ := hp.ready_next m2
  refine le_bind ((RunOps.nextStartW_le _ _ _ _).withVal ((RunOps.nextStartW_val _ _ _ _).trans m1)) ?_
  rintro _ c2 ⟨rfl, h2⟩
  refine le_bind ((RunOps.nextEndW_le _ _ _ _).withVal ((RunOps.nextEndW_val _ _ _ _).trans m3)) ?_
  rintro _ c3 ⟨rfl, h3⟩
  refine le_bind ((RunOps.nextStartW_le _ _ _ _).withVal ((RunOps.nextStartW_val _ _ _ _).trans m4)) ?_
  rintro _ c4 ⟨rfl, h4⟩
  have hskip : (PsiCoreRLE.splitSkipW E n lo (E.size + 2) st3 (rS rs n ((if ub ≠ 0 then ub - 1 else 0) * h))
      (rE rs n ((if ub ≠ 0 then ub - 1 else 0) * h)) (rS rs n ((if ub ≠ 0 then ub - 1 else 0) * h + 1))).Bnd (2 * h) := by
    rcases Nat.lt_or_ge lo n with hlo | hlo
    · obtain ⟨K, k1, k2, k3⟩ : ∃ K, K ≤ rs.length ∧ lo < rE rs n K ∧ K ≤ (if ub ≠ 0 then ub - 1 else 0) * h + h := by
        rcases Nat.lt_or_ge (ub * h) rs.length with hlt | hge
        · refine ⟨ub * h, Nat.le_of_lt hlt, Nat.lt_of_lt_of_le (b5 hlt) (hg.S_le_E _), ?_⟩
          by_cases h0 : ub = 0
          · rw [h0]; simp
          · rw [if_pos h0, ← Nat.succ_mul, show (ub - 1).succ = ub by omega]
        · refine ⟨rs.length, Nat.le_refl _, by rw [rE_ge (Nat.le_refl _)]; exact hlo, ?_⟩
          by_cases h0 : ub = 0
          · rw [h0] at hge; have := hp.ne; omega
          · rw [if_pos h0, ← Nat.succ_mul, show (ub - 1).succ = ub by omega]; exact hge
      exact (hp.splitSkipW_bnd k1 k2 (E.size + 2) st3 _ (b6 K k2) m5).up (by omega)
    · refine bnd_of_val_none ((PsiCoreRLE.splitSkipW_val _ _ _ _ _ _ _ _).trans ?_)
      rw [← rS_min (_ + 1)]
      exact hp.splitSkip_end hlo _ _ _ _ _ (hg.E_le _) m5
  refine le_bind hskip ?_
  rintro ⟨s, e, x, st⟩ c5 h5
  exact (PsiCoreRLE.splitReportW_le _ _ _ _ _ _ _ _ _ _).mono fun l c hc => by omega

/-! ## the run of a position -/

theorem rankSoftRunCW_val {P : PsiCoreRLE} {c : Nat} (hP : P.parts[c]? = some (E, ranks)) (hp : PartOK E ranks rs n h) (v : Nat) :
    (P.rankSoftRunCW c v).val = P.rankSoftRunC c v := by
  rw [PsiCoreRLE.rankSoftRunCW, PsiCoreRLE.rankSoftRunC, hP]
  rw [val_bind, val_free]
  simp only [Option.bind_eq_bind, Option.bind_some]
  refine val_bind_eq (hp.computeUpperBoundW_val v) fun ub => val_ite rfl (val_bind_eq (readW_val _ _) fun s => val_ite rfl
    (val_bind_eq (readW_val _ _) fun ptr => val_bind_eq (val_call _) ?_))
  rintro ⟨l, ptr⟩
  refine val_bind_eq (val_free _) fun rest => val_bind_eq (val_free _) fun left => val_bind_eq (PsiCoreRLE.softLoopW_val _ _ _ _ _ _ _) ?_
  rintro ⟨runs, s, e⟩; rfl

theorem rankSoftRunCW_bnd {P : PsiCoreRLE} {c : Nat} (hP : P.parts[c]? = some (E, ranks)) (hp : PartOK E ranks rs n h) (v : Nat) :
    (P.rankSoftRunCW c v).Bnd (Nat.log2 rs.length + 2 + 2 * h) := by
  rw [PsiCoreRLE.rankSoftRunCW, hP]
  refine le_bind (P := fun x c => c = 0 ∧ x = (E, ranks)) (le_free fun x e => ⟨rfl, (Option.some.inj e).symm⟩) ?_
  rintro _ _ ⟨rfl, rfl⟩
  refine le_bind (hp.computeUpperBoundW_le v) fun ub c1 h1 => le_ite (fun _ => le_pure (by omega)) fun _ => ?_
  have hh := hp.hpos
  refine le_bind (readW_bnd _ _) fun s c2 h2 => le_ite (fun _ => le_pure (by omega)) fun _ => ?_
  refine le_bind (readW_bnd _ _) fun ptr c3 h3 => le_bind (bnd_call _) ?_
  rintro ⟨l, ptr⟩ c4 h4
  refine le_bind (bnd_free _) fun rest c5 h5 => le_bind (P := fun x c => c = 0 ∧ x + 1 ≤ h) (le_free fun x e => ⟨rfl, ?_⟩) ?_
  · rw [csub] at e
    split at e
    · have := Option.some.inj e
      have := hp.half
      omega
    · cases e
  rintro left _ ⟨rfl, h6⟩
  refine le_bind (PsiCoreRLE.softLoopW_bnd _ _ _ _ _ _ _) ?_
  rintro ⟨runs, s, e⟩ c7 h7
  exact le_pure (by omega)

end PartOK

namespace PsiNav
variable {N : PsiNav} {T sa : List Nat}

theorem OK.symRuns_log (_ : N.OK T sa) (c : Nat) : Nat.log2 (symRuns (rle (bwtSeq T sa)) c).length ≤ Nat.log2 (nrun T sa) := by
  refine log2_mono ?_
  rw [symRuns, List.length_map]
  refine Nat.le_trans (List.length_filter_le _ _) ?_
  rw [List.length_range]
  exact Nat.le_refl _

theorem OK.part_none (h : N.OK T sa) {c : Nat} (hc : N.alphabet.sigma ≤ c) : N.psi.parts[c]? = none := by
  rw [List.getElem?_eq_none_iff, h.core.len]; exact hc

theorem OK.selectW_val (h : N.OK T sa) (c rnk : Nat) : (N.psi.selectW c rnk).val = N.psi.select c rnk := by
  rw [PsiCoreRLE.selectW, PsiCoreRLE.select]
  rcases Nat.lt_or_ge c N.alphabet.sigma with hc | hc
  · obtain ⟨E, ranks, e1, e2⟩ := h.core.part c hc
    rw [e1, val_bind, val_free]
    simp only [Option.bind_eq_bind, Option.bind_some]
    rw [h.core.n]
    refine val_bind_eq (e2.selectCoreW_val rnk) ?_
    rintro ⟨run, st⟩; exact val_free _
  · rw [h.part_none hc]; rfl

theorem OK.selectReportW_val (h : N.OK T sa) (c rnk : Nat) : (N.psi.selectReportW c rnk).val = N.psi.selectReport c rnk := by
  rw [PsiCoreRLE.selectReportW, PsiCoreRLE.selectReport]
  rcases Nat.lt_or_ge c N.alphabet.sigma with hc | hc
  · obtain ⟨E, ranks, e1, e2⟩ := h.core.part c hc
    rw [e1, val_bind, val_free]
    simp only [Option.bind_eq_bind, Option.bind_some]
    rw [h.core.n]
    refine val_bind_eq (e2.selectCoreW_val rnk) ?_
    rintro ⟨run, st⟩; exact val_bind_eq (val_free _) fun _ => rfl
  · rw [h.part_none hc]; rfl

theorem OK.computeForwardRunsW_val (h : N.OK T sa) (c a b : Nat) : (N.psi.computeForwardRunsW c a b).val = N.psi.computeForwardRuns c a b := by
  rw [PsiCoreRLE.computeForwardRunsW, PsiCoreRLE.computeForwardRuns]
  rcases Nat.lt_or_ge c N.alphabet.sigma with hc | hc
  · obtain ⟨E, ranks, e1, e2⟩ := h.core.part c hc
    rw [e1, val_bind, val_free]
    simp only [Option.bind_eq_bind, Option.bind_some]
    rw [h.core.n]
    refine val_bind_eq (e2.selectCoreW_val a) ?_
    rintro ⟨run, st⟩
    exact val_bind_eq (val_free _) fun _ => val_bind_eq (val_free _) fun _ => PsiCoreRLE.forwardLoopW_val _ _ _ _ _ _ _ _
  · rw [h.part_none hc]; rfl

theorem OK.selectW_bnd (h : N.OK T sa) (c rnk : Nat) : (N.psi.selectW c rnk).Bnd (Nat.log2 (nrun T sa) + 67) := by
  rw [PsiCoreRLE.selectW]
  rcases Nat.lt_or_ge c N.alphabet.sigma with hc | hc
  · obtain ⟨E, ranks, e1, e2⟩ := h.core.part c hc
    rw [e1, h.core.n]
    refine le_bind (P := fun x c => c = 0 ∧ x = (E, ranks)) (le_free fun x e => ⟨rfl, (Option.some.inj e).symm⟩) ?_
    rintro _ _ ⟨rfl, rfl⟩
    have := h.symRuns_log c
    refine le_bind (e2.selectCoreW_bnd rnk) ?_
    rintro ⟨run, st⟩ c1 h1
    exact (bnd_free _).mono fun _ c hc => by omega
  · rw [h.part_none hc]; exact bnd_of_val_none rfl

theorem OK.selectReportW_bnd (h : N.OK T sa) (c rnk : Nat) : (N.psi.selectReportW c rnk).Bnd (Nat.log2 (nrun T sa) + 67) := by
  rw [PsiCoreRLE.selectReportW]
  rcases Nat.lt_or_ge c N.alphabet.sigma with hc | hc
  · obtain ⟨E, ranks, e1, e2⟩ := h.core.part c hc
    rw [e1, h.core.n]
    refine le_bind (P := fun x c => c = 0 ∧ x = (E, ranks)) (le_free fun x e => ⟨rfl, (Option.some.inj e).symm⟩) ?_
    rintro _ _ ⟨rfl, rfl⟩
    have := h.symRuns_log c
    refine le_bind (e2.selectCoreW_bnd rnk) ?_
    rintro ⟨run, st⟩ c1 h1
    exact le_bind (bnd_free _) fun _ c2 h2 => le_pure (by omega)
  · rw [h.part_none hc]; exact bnd_of_val_none rfl

theorem OK.computeForwardRunsW_le (h : N.OK T sa) (c a b : Nat) :
    (N.psi.computeForwardRunsW c a b).Le (fun l k => k ≤ (Nat.log2 (nrun T sa) + 67) * l.length) := by
  rw [PsiCoreRLE.computeForwardRunsW]
  rcases Nat.lt_or_ge c N.alphabet.sigma with hc | hc
  · obtain ⟨E, ranks, e1, e2⟩ := h.core.part c hc
    rw [e1, h.core.n]
    refine le_bind (P := fun x c => c = 0 ∧ x = (E, ranks)) (le_free fun x e => ⟨rfl, (Option.some.inj e).symm⟩) ?_
    rintro _ _ ⟨rfl, rfl⟩
    have := h.symRuns_log c
    refine le_bind (e2.selectCoreW_bnd a) ?_
    rintro ⟨run, st⟩ c1 h1
    refine le_bind (bnd_free _) fun _ c2 h2 => le_bind (bnd_free _) fun _ c3 h3 => ?_
    refine (PsiCoreRLE.forwardLoopW_le _ _ _ _ _ _ _ _).mono fun l c hc => ?_
    obtain ⟨m, hm⟩ : ∃ m, l.length = m + 1 := ⟨l.length - 1, by omega⟩
    have : 2 * m ≤ (Nat.log2 (nrun T sa) + 67) * m := Nat.mul_le_mul_right _ (by omega)
    rw [hm, Nat.mul_succ]
    omega
  · rw [h.part_none hc]
    exact le_of_val_none rfl

theorem OK.softRunLoopW_val (h : N.OK T sa) (v : Nat) (l : List Nat) (a b : Nat) : (N.psi.softRunLoopW v l a b).val = N.psi.softRunLoop v l a b := by
  induction l generalizing a b with
  | nil => rfl
  | cons c l ih =>
    rw [PsiCoreRLE.softRunLoopW, PsiCoreRLE.softRunLoop]
    have e : (N.psi.rankSoftRunCW c v).val = N.psi.rankSoftRunC c v := by
      rcases Nat.lt_or_ge c N.alphabet.sigma with hc | hc
      · obtain ⟨E, ranks, e1, e2⟩ := h.core.part c hc
        exact e2.rankSoftRunCW_val e1 v
      · rw [PsiCoreRLE.rankSoftRunCW, PsiCoreRLE.rankSoftRunC, h.part_none hc]; rfl
    refine val_bind_eq e ?_
    rintro ⟨k, s⟩; exact ih _ _

theorem OK.softRunLoopW_bnd (h : N.OK T sa) (v : Nat) (l : List Nat) (a b : Nat) :
    (N.psi.softRunLoopW v l a b).Bnd (l.length * (Nat.log2 (nrun T sa) + 66)) := by
  induction l generalizing a b with
  | nil => exact (bnd_ret _).up (by omega)
  | cons c l ih =>
    rw [PsiCoreRLE.softRunLoopW]
    have e : (N.psi.rankSoftRunCW c v).Bnd (Nat.log2 (nrun T sa) + 66) := by
      rcases Nat.lt_or_ge c N.alphabet.sigma with hc | hc
      · obtain ⟨E, ranks, e1, e2⟩ := h.core.part c hc
        have := h.symRuns_log c
        exact (e2.rankSoftRunCW_bnd e1 v).up (by omega)
      · rw [PsiCoreRLE.rankSoftRunCW, h.part_none hc]; exact bnd_of_val_none rfl
    refine (bnd_bind (m := l.length * (Nat.log2 (nrun T sa) + 66)) e ?_).up (by rw [List.length_cons, Nat.succ_mul]; omega)
    rintro ⟨k, s⟩; exact ih _ _

theorem OK.rankRunW_val (h : N.OK T sa) (v : Nat) : (N.psi.rankRunW v).val = N.psi.rankRun v := by
  rw [PsiCoreRLE.rankRunW, PsiCoreRLE.rankRun, PsiCoreRLE.rankSoftRun]
  refine val_bind_eq (h.softRunLoopW_val v _ _ _) ?_
  rintro ⟨runs, s⟩; exact val_free _

theorem OK.rankRunW_bnd (h : N.OK T sa) (v : Nat) : (N.psi.rankRunW v).Bnd (N.alphabet.sigma * (Nat.log2 (nrun T sa) + 66)) := by
  rw [PsiCoreRLE.rankRunW, ← h.core.len]
  have e := h.softRunLoopW_bnd v (List.range N.psi.parts.length) 0 N.psi.n
  rw [List.length_range] at e
  refine bnd_bind (m := 0) e ?_
  rintro ⟨runs, s⟩; exact bnd_free _

theorem OK.rankCharRunW_val (_ : N.OK T sa) (c : Nat) : (N.psi.rankCharRunW c).val = N.psi.rankCharRun c := by
  rw [PsiCoreRLE.rankCharRunW, PsiCoreRLE.rankCharRun]
  exact val_bind_eq (val_mapM _ fun _ _ => val_call _) fun _ => rfl

/-- one size per symbol before `c`, and there are no more than in the alphabet -/
theorem OK.rankCharRunW_bnd (h : N.OK T sa) (c : Nat) : (N.psi.rankCharRunW c).Bnd N.alphabet.sigma := by
  rw [PsiCoreRLE.rankCharRunW]
  have gen : ∀ l : List Nat, (l.mapM (fun i => Cost.call ((N.psi.parts[i]?).map (fun q => q.1.size / 2)))).Le
      (fun _ k => k = l.length ∧ ∀ i ∈ l, i < N.alphabet.sigma) := by
    intro l
    induction l with
    | nil => exact le_pure ⟨rfl, by intro i hi; cases hi⟩
    | cons a l ih =>
      rw [List.mapM_cons]
      refine le_bind (P := fun _ k => k = 1 ∧ a < N.alphabet.sigma) (le_call fun x e => ⟨rfl, ?_⟩) ?_
      · by_contra hc
        rw [h.part_none (by omega)] at e; cases e
      rintro x _ ⟨rfl, ha⟩
      refine le_bind ih ?_
      rintro y k ⟨rfl, hy⟩
      refine le_pure ⟨by rw [List.length_cons]; omega, ?_⟩
      intro i hi
      rcases List.mem_cons.1 hi with rfl | hi
      · exact ha
      · exact hy i hi
  refine le_bind (gen _) ?_
  rintro x k ⟨rfl, hx⟩
  refine le_pure ?_
  rw [List.length_range]
  rcases c with _ | c
  · omega
  · have := hx c (by rw [List.mem_range]; omega); omega

theorem OK.splitInSortedRunsW_val (h : N.OK T sa) (a b : Nat) : (N.psi.splitInSortedRunsW a b).val = N.psi.splitInSortedRuns a b := by
  rw [PsiCoreRLE.splitInSortedRunsW, PsiCoreRLE.splitInSortedRuns, PsiCoreRLE.splitInRunsW, PsiCoreRLE.splitInRuns]
  refine val_bind_eq (val_bind_eq (val_mapM _ fun c hc => ?_) fun _ => rfl) fun _ => rfl
  rw [List.mem_range, h.core.len] at hc
  obtain ⟨E, ranks, e1, e2⟩ := h.core.part c hc
  exact e2.splitInRunsCW_val e1 a b

theorem OK.splitInSortedRunsW_le (h : N.OK T sa) (a b : Nat) :
    (N.psi.splitInSortedRunsW a b).Le (fun l k => k ≤ N.alphabet.sigma * (Nat.log2 (nrun T sa) + 69) + 2 * l.length) := by
  have gen : ∀ cs : List Nat, (∀ c ∈ cs, c < N.alphabet.sigma) → (cs.mapM (fun c => N.psi.splitInRunsCW c a b)).Le
      (fun ls k => k ≤ cs.length * (Nat.log2 (nrun T sa) + 69) + 2 * ls.flatten.length) := by
    intro cs
    induction cs with
    | nil => intro _; exact le_pure (Nat.zero_le _)
    | cons c cs ih =>
      intro hcs
      rw [List.mapM_cons]
      obtain ⟨E, ranks, e1, e2⟩ := h.core.part c (hcs c (List.mem_cons_self ..))
      have := h.symRuns_log c
      refine le_bind (e2.splitInRunsCW_le e1 h.core.n a b) fun l k hk => ?_
      refine le_bind (ih fun c hc => hcs c (List.mem_cons_of_mem _ hc)) fun ls k2 hk2 => le_pure ?_
      rw [List.flatten_cons, List.length_append, List.length_cons, Nat.succ_mul]
      omega
  rw [PsiCoreRLE.splitInSortedRunsW, PsiCoreRLE.splitInRunsW]
  have e := gen (List.range N.psi.parts.length) (by intro c hc; rw [List.mem_range, h.core.len] at hc; exact hc)
  rw [List.length_range, h.core.len] at e
  rw [h.core.len]
  refine le_bind (P := fun l k => k ≤ N.alphabet.sigma * (Nat.log2 (nrun T sa) + 69) + 2 * l.length)
    (le_bind e fun ls k hk => le_pure hk) fun l k hk => le_pure ?_
  rw [(sortBy_perm _ _).length_eq]
  exact hk

end PsiNav

end Sri
