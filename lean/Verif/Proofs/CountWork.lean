import Verif.Model.CountWork
import Verif.Proofs.WorkIndex
import Verif.Proofs.LegacyBuild
import Mathlib.Data.Nat.Log
/-! # The work of a Count query: what the counting versions compute, and bounds on what they count -/
namespace Sri
set_option autoImplicit false

open Cost

namespace Cost
variable {α β : Type}

/-- the value of a computation, next to what is known of its calls -/
theorem Le.withVal {x : Cost α} {P : α → Nat → Prop} (h : x.Le P) {a : α} (hv : x.val = some a) : x.Le (fun b c => b = a ∧ P b c) := by
  intro b c e
  refine ⟨?_, h b c e⟩
  rw [e] at hv
  exact Option.some.inj hv

end Cost

namespace RLEString
variable (S : RLEString)

theorem afterSelectW_val (bv : List Bool) (k : Nat) : (afterSelectW bv k).val = afterSelect bv k := by
  rw [afterSelectW, afterSelect]
  refine val_ite rfl ?_
  rw [val_bind, val_call]
  cases bvSelect bv k <;> rfl

theorem computeSymbolRunDataW_val (q : Nat) : (S.computeSymbolRunDataW q).val = S.computeSymbolRunData q := by
  rw [computeSymbolRunDataW, computeSymbolRunData]
  refine val_bind_eq (val_free _) fun _ => val_bind_eq (val_call _) ?_
  rintro ⟨run, c⟩
  exact val_bind_eq (val_free _) fun bv => val_bind_eq (afterSelectW_val _ _) fun _ => val_bind_eq (val_call _) fun _ => rfl

theorem computeBothRunDataW_val (q a : Nat) : (S.computeBothRunDataW q a).val = S.computeBothRunData q a := by
  rw [computeBothRunDataW, computeBothRunData]
  exact val_bind_eq (S.computeSymbolRunDataW_val q) fun _ => val_bind_eq (val_free _) fun _ => rfl

theorem advanceW_val (i fuel : Nat) (p : RunData × RunData) : (S.advanceW i fuel p).val = S.advance i fuel p := by
  induction fuel generalizing p with
  | zero => rfl
  | succ fuel ih =>
    rw [advanceW, advance]
    exact val_ite (val_bind_eq (S.computeBothRunDataW_val _ _) fun q => ih q) rfl

theorem rankSoftBothRunW_val (i : Nat) : (S.rankSoftBothRunW i).val = S.rankSoftBothRun i := by
  rw [rankSoftBothRunW, rankSoftBothRun]
  exact val_bind_eq (val_call _) fun _ => val_bind_eq (afterSelectW_val _ _) fun _ => val_bind_eq (S.computeBothRunDataW_val _ _) fun _ =>
    val_bind_eq (S.advanceW_val _ _ _) fun _ => val_bind_eq (val_free _) fun _ => val_bind_eq (val_free _) fun _ => rfl

theorem rankReportW_val (i c : Nat) : (S.rankReportW i c).val = S.rankReport i c := by
  rw [rankReportW, rankReport]
  refine val_bind_eq (val_free _) fun _ => val_bind_eq (val_free _) fun bv => val_ite rfl (val_ite (val_bind_eq (val_call _) fun _ => rfl)
    (val_bind_eq (S.rankSoftBothRunW_val i) ?_))
  rintro ⟨run, sym⟩
  exact val_ite (val_bind_eq (val_free _) fun _ => rfl) (val_bind_eq (val_call _) fun _ => val_bind_eq (afterSelectW_val _ _) fun _ => rfl)

theorem afterSelectW_le (bv : List Bool) (k : Nat) : (afterSelectW bv k).Le (fun _ c => c ≤ 1) := by
  rw [afterSelectW]
  refine le_ite (fun _ => le_ret (Nat.zero_le _)) (fun _ => ?_)
  refine le_bind (P := fun _ c => c = 1) (le_call fun _ _ => rfl) ?_
  rintro e _ rfl
  exact le_pure (Nat.le_refl _)

theorem computeBothRunDataW_le (q a : Nat) : (S.computeBothRunDataW q a).Le (fun _ c => c ≤ 3) := by
  rw [computeBothRunDataW]
  refine le_bind (P := fun _ c => c ≤ 3) ?_ ?_
  · rw [computeSymbolRunDataW]
    refine le_bind (P := fun _ c => c = 0) (le_free fun _ _ => rfl) ?_
    rintro _ _ rfl
    refine le_bind (P := fun _ c => c = 1) (le_call fun _ _ => rfl) ?_
    rintro ⟨run, c⟩ _ rfl
    refine le_bind (P := fun _ c => c = 0) (le_free fun _ _ => rfl) ?_
    rintro bv _ rfl
    refine le_bind (afterSelectW_le _ _) fun st c1 h1 => ?_
    refine le_bind (P := fun _ c => c = 1) (le_call fun _ _ => rfl) ?_
    rintro e _ rfl
    exact le_pure (by omega)
  · intro sym c1 h1
    refine le_bind (P := fun _ c => c = 0) (le_free fun _ _ => rfl) ?_
    rintro _ _ rfl
    exact le_pure (by omega)

end RLEString

namespace Rep
variable {S : RLEString} {R : List (Nat × Nat)}

/-- the scan of a block: three operations per run passed -/
theorem advanceW_le (h : Rep S R) {i m : Nat} (hm : m < R.length) (h2 : i < rstart R (m+1)) :
    ∀ (fuel k : Nat) (hk : k ≤ m), (S.advanceW i fuel (grun R k (by omega), srun R k (by omega))).Le (fun _ c => c ≤ 3 * (m - k)) := by
  intro fuel
  induction fuel with
  | zero => intro k _; exact le_none
  | succ fuel ih =>
    intro k hk
    rw [RLEString.advanceW]
    refine le_ite (fun hle => ?_) (fun _ => le_ret (Nat.zero_le _))
    have hlt : k < m := by
      rcases Nat.lt_or_eq_of_le hk with hlt | rfl
      · exact hlt
      · simp only [grun] at hle; omega
    refine le_bind ((S.computeBothRunDataW_le _ _).withVal (a := (grun R (k+1) (by omega), srun R (k+1) (by omega))) ?_) ?_
    · rw [S.computeBothRunDataW_val]
      simp only [grun]
      exact h.bothRunData (show k + 1 < R.length by omega)
    · rintro p c ⟨rfl, hc⟩
      exact (ih (k+1) hlt).mono fun _ d hd => by omega

theorem rankSoftBothRunW_le (h : Rep S R) {i : Nat} (hi : i < S.size) : (S.rankSoftBothRunW i).Le (fun _ c => c ≤ 3 * S.b + 2) := by
  have hi' : i < rstart R R.length := by rw [h.size_eq, length_expand] at hi; exact hi
  obtain ⟨m, hm, h1, h2⟩ := rstart_find R hi'
  have hblock : bvRank S.runs i = some (m / S.b) := by
    rw [bvRank, if_pos (show i ≤ S.runs.length from Nat.le_of_lt hi), h.runs, count_take_un h.blkpos (m := m) (by rw [blk_length]; exact hm)
      (by rw [blk_ustart]; exact h1) (by rw [blk_ustart]; exact h2), blk_count h.b hm]
  have hle : m / S.b * S.b ≤ m := Nat.div_mul_le_self _ _
  have hlt : m < m / S.b * S.b + S.b := by
    have h3 := Nat.div_add_mod m S.b
    have h4 := Nat.mod_lt m h.b
    rw [Nat.mul_comm] at h3
    omega
  rw [RLEString.rankSoftBothRunW]
  refine le_bind (P := fun x c => x = m / S.b ∧ c = 1) (le_call fun x e => ⟨?_, rfl⟩) ?_
  · rw [hblock] at e; exact (Option.some.inj e).symm
  rintro _ _ ⟨rfl, rfl⟩
  refine le_bind ((RLEString.afterSelectW_le _ _).withVal ((RLEString.afterSelectW_val _ _).trans (h.blockStart hm))) ?_
  rintro _ c1 ⟨rfl, h1'⟩
  refine le_bind ((S.computeBothRunDataW_le _ _).withVal ((S.computeBothRunDataW_val _ _).trans
    (h.bothRunData (show m / S.b * S.b < R.length by omega)))) ?_
  rintro _ c2 ⟨rfl, h2'⟩
  refine le_bind (h.advanceW_le hm h2 (S.r + 1) _ hle) fun p c3 h3 => ?_
  refine le_bind (P := fun _ c => c = 0) (le_free fun _ _ => rfl) ?_
  rintro _ _ rfl
  refine le_bind (P := fun _ c => c = 0) (le_free fun _ _ => rfl) ?_
  rintro _ _ rfl
  exact le_pure (by omega)

/-- one rank with report, for every position and symbol -/
theorem rankReportW_le (h : Rep S R) (i c : Nat) : (S.rankReportW i c).Le (fun _ k => k ≤ 3 * S.b + 4) := by
  rw [RLEString.rankReportW]
  refine le_bind (P := fun _ c => c = 0 ∧ i ≤ S.size) (le_free fun _ e => ⟨rfl, ?_⟩) ?_
  · rw [assertC] at e
    split at e
    · simpa using ‹decide (i ≤ S.size) = true›
    · cases e
  rintro _ _ ⟨rfl, hi⟩
  refine le_bind (P := fun _ c => c = 0) (le_free fun _ _ => rfl) ?_
  rintro bv _ rfl
  refine le_ite (fun _ => le_pure (by omega)) (fun _ => le_ite (fun _ => ?_) (fun hne => ?_))
  · refine le_bind (P := fun _ c => c = 1) (le_call fun _ _ => rfl) ?_
    rintro _ _ rfl
    exact le_pure (by omega)
  · refine le_bind (h.rankSoftBothRunW_le (by omega)) ?_
    rintro ⟨run, sym⟩ c1 h1
    refine le_ite (fun _ => ?_) (fun _ => ?_)
    · refine le_bind (P := fun _ c => c = 0) (le_free fun _ _ => rfl) ?_
      rintro _ _ rfl
      exact le_pure (by omega)
    · refine le_bind (P := fun _ c => c = 1) (le_call fun _ _ => rfl) ?_
      rintro _ _ rfl
      refine le_bind (RLEString.afterSelectW_le _ _) fun _ c2 h2 => le_pure (by omega)

end Rep

theorem RIndex.lfW_val (I : RIndex) (r : Range) (c : Nat) : (I.lfW r c).val = I.lf r c := by
  rw [lfW, lf]
  exact val_bind_eq (val_free _) fun _ => val_bind_eq (RLEString.rankReportW_val _ _ _) fun _ =>
    val_bind_eq (RLEString.rankReportW_val _ _ _) fun _ => val_bind_eq (val_free _) fun _ => rfl

theorem RIndex.lfW_le {I : RIndex} {R : List (Nat × Nat)} (h : Rep I.bwtRle R) (r : Range) (c : Nat) :
    (I.lfW r c).Le (fun _ k => k ≤ 2 * (3 * I.bwtRle.b + 4)) := by
  rw [lfW]
  refine le_bind (P := fun _ c => c = 0) (le_free fun _ _ => rfl) ?_
  rintro _ _ rfl
  refine le_bind (h.rankReportW_le _ _) fun _ c1 h1 => le_bind (h.rankReportW_le _ _) fun _ c2 h2 => ?_
  refine le_bind (P := fun _ c => c = 0) (le_free fun _ _ => rfl) ?_
  rintro _ _ rfl
  exact le_pure (by omega)

/-! ## std::upper_bound -/

/-- what the search returns: everything before is not greater, everything from there on is -/
theorem binarySearchW_val {get : Nat → Option Nat} {L : Nat → Nat} {m v : Nat} (hg : ∀ i, i < m → get i = some (L i))
    (hs : ∀ i j, i ≤ j → j < m → L i ≤ L j) : ∀ (fuel first len : Nat), len ≤ fuel → first + len ≤ m →
    (∀ i, i < first → L i ≤ v) → (∀ i, first + len ≤ i → i < m → v < L i) →
    ∃ k, (binarySearchW get v fuel first len).val = some k ∧ k ≤ m ∧ (∀ i, i < k → L i ≤ v) ∧ (∀ i, k ≤ i → i < m → v < L i) := by
  intro fuel
  induction fuel with
  | zero =>
    intro first len hf hm h1 h2
    have h0 : len = 0 := by omega
    subst h0
    exact ⟨first, rfl, hm, h1, h2⟩
  | succ fuel ih =>
    intro first len hf hm h1 h2
    rw [binarySearchW]
    by_cases h0 : len = 0
    · subst h0; exact ⟨first, rfl, hm, h1, h2⟩
    · rw [if_neg h0, val_bind, val_call, hg _ (by omega)]
      change ∃ k, Cost.val (if v < L (first + len / 2) then _ else _) = _ ∧ _
      by_cases hv : v < L (first + len / 2)
      · rw [if_pos hv]
        refine ih first (len / 2) (by omega) (by omega) h1 fun i hi hi2 => ?_
        exact Nat.lt_of_lt_of_le hv (hs _ _ hi hi2)
      · rw [if_neg hv]
        refine ih (first + len / 2 + 1) (len - len / 2 - 1) (by omega) (by omega) (fun i hi => ?_) fun i hi hi2 => h2 i (by omega) hi2
        exact Nat.le_trans (hs i (first + len / 2) (by omega) (by omega)) (by omega)

theorem log2_half {n : Nat} (h : 2 ≤ n) : Nat.log2 n = Nat.log2 (n / 2) + 1 := by
  rw [Nat.log2_def, if_pos h]

theorem log2_mono {m n : Nat} (h : m ≤ n) : Nat.log2 m ≤ Nat.log2 n := by
  rw [Nat.log2_eq_log_two, Nat.log2_eq_log_two]; exact Nat.log_mono_right h

/-- the search reads one element per halving -/
theorem binarySearchW_le (get : Nat → Option Nat) (v : Nat) : ∀ (fuel first len : Nat),
    (binarySearchW get v fuel first len).Le (fun _ c => c ≤ if len = 0 then 0 else Nat.log2 len + 1) := by
  intro fuel
  induction fuel with
  | zero =>
    intro first len
    rw [binarySearchW]
    exact le_ite (fun h => le_ret (by simp)) (fun _ => le_none)
  | succ fuel ih =>
    intro first len
    rw [binarySearchW]
    refine le_ite (fun h => le_ret (by simp)) (fun h0 => ?_)
    rw [if_neg h0]
    have key : ∀ l, l ≤ len / 2 → 1 + (if l = 0 then 0 else Nat.log2 l + 1) ≤ Nat.log2 len + 1 := by
      intro l hl
      split
      · omega
      · have := log2_mono hl
        rw [log2_half (n := len) (by omega)]; omega
    refine le_bind (P := fun _ c => c = 1) (le_call fun _ _ => rfl) ?_
    rintro x _ rfl
    refine le_ite (fun _ => ?_) (fun _ => ?_)
    · exact (ih first (len / 2)).mono fun _ c hc => Nat.le_trans (Nat.add_le_add_left hc 1) (key _ (Nat.le_refl _))
    · exact (ih (first + len / 2 + 1) (len - len / 2 - 1)).mono fun _ c hc => Nat.le_trans (Nat.add_le_add_left hc 1) (key _ (by omega))

/-! ## the runs of psi -/

theorem RunOps.nextStartW_val (E : EncVector) (n : Nat) (st : RunOps) (e : Nat) : (RunOps.nextStartW E n st e).val = RunOps.nextStart E n st e := by
  rw [nextStartW, nextStart]
  refine val_ite (val_bind_eq (val_call _) ?_) (val_bind_eq (val_free _) fun _ => val_ite
    (val_bind_eq (val_free _) fun _ => val_bind_eq (val_free _) fun _ => val_bind_eq (val_call _) fun _ => rfl) rfl)
  rintro ⟨d, p⟩; rfl

theorem RunOps.nextEndW_val (E : EncVector) (n : Nat) (st : RunOps) (s : Nat) : (RunOps.nextEndW E n st s).val = RunOps.nextEnd E n st s := by
  rw [nextEndW, nextEnd]
  refine val_ite (val_bind_eq (val_call _) ?_) rfl
  rintro ⟨d, p⟩; rfl

theorem RunOps.nextStartW_le (E : EncVector) (n : Nat) (st : RunOps) (e : Nat) : (RunOps.nextStartW E n st e).Le (fun _ c => c ≤ 1) := by
  rw [nextStartW]
  refine le_ite (fun _ => ?_) (fun _ => ?_)
  · refine le_bind (P := fun _ c => c = 1) (le_call fun _ _ => rfl) ?_
    rintro ⟨d, p⟩ _ rfl
    exact le_pure (Nat.le_refl _)
  · refine le_bind (P := fun _ c => c = 0) (le_free fun _ _ => rfl) ?_
    rintro m _ rfl
    refine le_ite (fun _ => ?_) (fun _ => le_pure (by omega))
    refine le_bind (P := fun _ c => c = 0) (le_free fun _ _ => rfl) ?_
    rintro _ _ rfl
    refine le_bind (P := fun _ c => c = 0) (le_free fun _ _ => rfl) ?_
    rintro _ _ rfl
    refine le_bind (P := fun _ c => c = 1) (le_call fun _ _ => rfl) ?_
    rintro _ _ rfl
    exact le_pure (by omega)

theorem RunOps.nextEndW_le (E : EncVector) (n : Nat) (st : RunOps) (s : Nat) : (RunOps.nextEndW E n st s).Le (fun _ c => c ≤ 1) := by
  rw [nextEndW]
  refine le_ite (fun _ => ?_) (fun _ => le_pure (Nat.zero_le _))
  refine le_bind (P := fun _ c => c = 1) (le_call fun _ _ => rfl) ?_
  rintro ⟨d, p⟩ _ rfl
  exact le_pure (Nat.le_refl _)

theorem PsiCoreRLE.rankReportLoopW_val (E : EncVector) (n v f : Nat) (st : RunOps) (s e r : Nat) :
    (rankReportLoopW E n v f st s e r).val = rankReportLoop E n v f st s e r := by
  induction f generalizing st s e r with
  | zero => rfl
  | succ f ih =>
    rw [rankReportLoopW, rankReportLoop]
    refine val_ite (val_bind_eq (val_free _) fun d => val_bind_eq (RunOps.nextStartW_val _ _ _ _) ?_) rfl
    rintro ⟨s', st⟩
    refine val_bind_eq (RunOps.nextEndW_val _ _ _ _) ?_
    rintro ⟨e', st⟩
    exact ih _ _ _ _

namespace PartOK
variable {E : EncVector} {ranks : List Nat} {rs : List (Nat × Nat)} {n h : Nat}

theorem samples (hp : PartOK E ranks rs n h) {m : Nat} (hmi : ∀ i, i < m ↔ i * h < rs.length) {i : Nat} (hi : i < m) :
    E.sample i = some (rS rs n (i * h)) := by
  have hi := (hmi i).1 hi
  obtain ⟨h1, _⟩ := hp.enc.sample i (by rw [hp.half, flat_length, show i * (2 * h) = 2 * (i * h) by ring]; omega)
  rw [hp.half, show i * (2 * h) = 2 * (i * h) by ring, flat_even rs n hi] at h1
  rw [EncVector.sample, assertC, if_pos, h1]; rfl
  simp only [decide_eq_true_eq]
  rw [hp.half, hp.size, show i * (2 * h) = 2 * (i * h) by ring]; omega

/-- the binary search over the samples returns what std::upper_bound promises -/
theorem computeUpperBoundW_val (hp : PartOK E ranks rs n h) (v : Nat) : (computeUpperBoundW E v).val = computeUpperBound E v := by
  obtain ⟨m, hm, hmi⟩ := hp.nSamples
  have hs : ∀ i ∈ List.range m, E.sample i = some (rS rs n (i * h)) := fun i hi => hp.samples hmi (List.mem_range.1 hi)
  have hmono : ∀ i j, i ≤ j → j < m → rS rs n (i * h) ≤ rS rs n (j * h) := by
    intro i j hij _
    rcases Nat.lt_or_eq_of_le hij with hlt | rfl
    · have := hp.good.E_le_S_of_lt (show i * h < j * h from Nat.mul_lt_mul_of_pos_right hlt hp.hpos)
      have := hp.good.S_le_E (i * h)
      omega
    · exact Nat.le_refl _
  obtain ⟨k, k1, k2, k3, k4⟩ := binarySearchW_val (get := E.sample) (L := fun i => rS rs n (i * h)) (m := m) (v := v)
    (fun i hi => hp.samples hmi hi) hmono m 0 m (Nat.le_refl _) (by omega) (by omega) (by omega)
  rw [computeUpperBoundW, computeUpperBound, val_bind, val_free, hm]
  change (binarySearchW E.sample v m 0 m).val = _
  rw [k1]
  simp only [Option.bind_eq_bind, Option.bind_some, mapM_some hs]
  obtain ⟨u1, u2, u3⟩ := upperBound_spec ((List.range m).map (fun i => rS rs n (i * h))) v
  rw [List.length_map, List.length_range] at u1
  change some k = some (upperBound _ v)
  congr 1
  rcases Nat.lt_trichotomy k (upperBound ((List.range m).map (fun i => rS rs n (i * h))) v) with hlt | heq | hgt
  · exfalso
    obtain ⟨y, hy, hyv⟩ := u2 k hlt
    rw [List.getElem?_map, List.getElem?_range (by omega)] at hy
    have := k4 k (Nat.le_refl _) (by omega)
    simp at hy
    omega
  · exact heq
  · exfalso
    have h1 := k3 _ hgt
    have h2 := u3 (rS rs n (upperBound ((List.range m).map (fun i => rS rs n (i * h))) v * h))
      (by rw [List.getElem?_map, List.getElem?_range (by omega)]; rfl)
    omega

theorem computeUpperBoundW_le (hp : PartOK E ranks rs n h) (v : Nat) :
    (computeUpperBoundW E v).Le (fun _ c => c ≤ Nat.log2 rs.length + 1) := by
  obtain ⟨m, hm, hmi⟩ := hp.nSamples
  have hml : m ≤ rs.length := by
    rcases Nat.eq_zero_or_pos m with h0 | h0
    · omega
    · have := (hmi (m-1)).1 (by omega)
      have := Nat.le_mul_of_pos_right (m-1) hp.hpos
      omega
  rw [computeUpperBoundW]
  refine le_bind (P := fun x c => c = 0 ∧ x = m) (le_free fun x e => ⟨rfl, ?_⟩) ?_
  · rw [hm] at e; exact (Option.some.inj e).symm
  rintro _ _ ⟨rfl, rfl⟩
  refine (binarySearchW_le _ _ _ _ _).mono fun _ c hc => ?_
  have := log2_mono hml
  split at hc <;> omega

/-- the scan from a sample: two operations per run passed -/
theorem rankReportLoopW_le (hp : PartOK E ranks rs n h) {w k1 : Nat} (hk1 : k1 ≤ rs.length) (hw : w < rE rs n k1) (f : Nat) (st : RunOps) (k : Nat)
    (hk : k ≤ k1) (ha : At E rs h st (min (k+1) rs.length)) (r : Nat) :
    (PsiCoreRLE.rankReportLoopW E n w f st (rS rs n k) (rE rs n k) r).Le (fun _ c => c ≤ 2 * (k1 - k)) := by
  induction f generalizing st k r with
  | zero => exact le_none
  | succ f ih =>
    rw [PsiCoreRLE.rankReportLoopW]
    refine le_ite (fun hc => ?_) (fun _ => le_pure (Nat.zero_le _))
    have hlt : k < k1 := by
      rcases Nat.lt_or_eq_of_le hk with h' | h'
      · exact h'
      · subst h'; omega
    rw [Nat.min_eq_left (by omega)] at ha
    obtain ⟨st1, st2, n1, n2, n3, n4, n5⟩ := hp.next (x := rE rs n k) ha (by intro _; rfl)
    refine le_bind (P := fun _ c => c = 0) (le_free fun _ _ => rfl) ?_
    rintro d _ rfl
    refine le_bind ((RunOps.nextStartW_le _ _ _ _).withVal ((RunOps.nextStartW_val _ _ _ _).trans n1)) ?_
    rintro _ c1 ⟨rfl, h1⟩
    refine le_bind ((RunOps.nextEndW_le _ _ _ _).withVal ((RunOps.nextEndW_val _ _ _ _).trans n3)) ?_
    rintro _ c2 ⟨rfl, h2⟩
    exact (ih st2 (k+1) (by omega) n4 _).mono fun _ c hc => by omega

/-- one rank with report, for every position -/
theorem rankReportW_val {P : PsiCoreRLE} {c : Nat} (hP : P.parts[c]? = some (E, ranks)) (hp : PartOK E ranks rs n h) (v : Nat) :
    (P.rankReportW c v).val = P.rankReport c v := by
  rw [PsiCoreRLE.rankReportW, PsiCoreRLE.rankReport, hP]
  refine val_bind_eq (val_free _) fun _ => ?_
  rw [val_bind, val_free]
  simp only [Option.bind_eq_bind, Option.bind_some]
  refine val_bind_eq (val_free _) fun w => val_bind_eq (hp.computeUpperBoundW_val w) fun ub => val_bind_eq (val_call _) fun rank =>
    val_bind_eq (val_call _) fun st => val_bind_eq (RunOps.nextStartW_val _ _ _ _) ?_
  rintro ⟨s, st⟩
  refine val_bind_eq (RunOps.nextEndW_val _ _ _ _) ?_
  rintro ⟨e, st⟩
  refine val_bind_eq (PsiCoreRLE.rankReportLoopW_val _ _ _ _ _ _ _ _) ?_
  rintro ⟨rank, s, e, st⟩; rfl

theorem rankReportW_le {P : PsiCoreRLE} {c : Nat} (hP : P.parts[c]? = some (E, ranks)) (hn : P.n = n) (hp : PartOK E ranks rs n h) (v : Nat) :
    (P.rankReportW c v).Le (fun _ k => k ≤ Nat.log2 rs.length + 5 + 2 * h) := by
  rw [PsiCoreRLE.rankReportW, hP, hn]
  refine le_bind (P := fun _ c => c = 0 ∧ v ≤ n) (le_free fun _ e => ⟨rfl, ?_⟩) ?_
  · rw [assertC] at e
    split at e
    · simpa using ‹decide (v ≤ n) = true›
    · cases e
  rintro _ _ ⟨rfl, hv⟩
  refine le_bind (P := fun x c => c = 0 ∧ x = (E, ranks)) (le_free fun x e => ⟨rfl, (Option.some.inj e).symm⟩) ?_
  rintro _ _ ⟨rfl, rfl⟩
  have hg := hp.good
  have hn0 : 0 < n := by have := hg.lt 0 hp.ne; omega
  refine le_bind (P := fun w c => c = 0 ∧ w < n) (le_free fun w e => ⟨rfl, ?_⟩) ?_
  · rw [PsiCoreRLE.clampLast] at e
    split at e
    · rw [csub, if_pos (by omega)] at e
      have := Option.some.inj e
      omega
    · have := Option.some.inj e
      omega
  rintro w _ ⟨rfl, hw⟩
  obtain ⟨ub, b1, b2, b3, b4, b5, b6⟩ := hp.block w
  refine le_bind ((hp.computeUpperBoundW_le w).withVal ((hp.computeUpperBoundW_val w).trans b1)) ?_
  rintro ub c1 ⟨rfl, h1⟩
  refine le_bind (P := fun _ c => c = 1) (le_call fun _ _ => rfl) ?_
  rintro rank _ rfl
  obtain ⟨st, s1, s2, s3⟩ := hp.init b2
  refine le_bind (P := fun x c => x = st ∧ c = 1) (le_call fun x e => ⟨?_, rfl⟩) ?_
  · rw [s1] at e; exact (Option.some.inj e).symm
  rintro _ _ ⟨rfl, rfl⟩
  obtain ⟨st1, st2, n1, n2, n3, n4, n5⟩ := hp.next (x := 0) s2 (by intro hc; exact absurd s3 hc)
  refine le_bind ((RunOps.nextStartW_le _ _ _ _).withVal ((RunOps.nextStartW_val _ _ _ _).trans n1)) ?_
  rintro _ c2 ⟨rfl, h2⟩
  refine le_bind ((RunOps.nextEndW_le _ _ _ _).withVal ((RunOps.nextEndW_val _ _ _ _).trans n3)) ?_
  rintro _ c3 ⟨rfl, h3⟩
  obtain ⟨K, k1, k2, k3⟩ : ∃ K, K ≤ rs.length ∧ w < rE rs n K ∧ K ≤ (if ub ≠ 0 then ub - 1 else 0) * h + h := by
    rcases Nat.lt_or_ge (ub * h) rs.length with hlt | hge
    · refine ⟨ub * h, Nat.le_of_lt hlt, Nat.lt_of_lt_of_le (b5 hlt) (hg.S_le_E _), ?_⟩
      by_cases h0 : ub = 0
      · rw [h0]; simp
      · rw [if_pos h0, ← Nat.succ_mul, show (ub - 1).succ = ub by omega]
    · refine ⟨rs.length, Nat.le_refl _, by rw [rE_ge (Nat.le_refl _)]; exact hw, ?_⟩
      by_cases h0 : ub = 0
      · rw [h0] at hge; have := hp.ne; omega
      · rw [if_pos h0, ← Nat.succ_mul, show (ub - 1).succ = ub by omega]; exact hge
  refine le_bind (hp.rankReportLoopW_le k1 k2 (E.size + 1) st2 _ (b6 K k2) n4 rank) ?_
  rintro ⟨rank, s, e, st'⟩ c4 h4
  exact le_pure (by omega)

end PartOK

namespace PsiNav
variable {N : PsiNav} {T sa : List Nat}

theorem OK.rankReportW_val (h : N.OK T sa) (c v : Nat) : (N.psi.rankReportW c v).val = N.psi.rankReport c v := by
  rcases Nat.lt_or_ge c N.alphabet.sigma with hc | hc
  · obtain ⟨E, ranks, e1, e2⟩ := h.core.part c hc
    exact e2.rankReportW_val e1 v
  · have hnone : N.psi.parts[c]? = none := by rw [List.getElem?_eq_none_iff, h.core.len]; exact hc
    rw [PsiCoreRLE.rankReportW, PsiCoreRLE.rankReport, hnone]
    exact val_bind_eq (val_free _) fun _ => rfl

theorem OK.rankReportW_le (h : N.OK T sa) (c v : Nat) : (N.psi.rankReportW c v).Le (fun _ k => k ≤ Nat.log2 (nrun T sa) + 69) := by
  rcases Nat.lt_or_ge c N.alphabet.sigma with hc | hc
  · obtain ⟨E, ranks, e1, e2⟩ := h.core.part c hc
    refine (e2.rankReportW_le e1 h.core.n v).mono fun _ k hk => ?_
    have hle : (symRuns (rle (bwtSeq T sa)) c).length ≤ nrun T sa := by
      rw [symRuns, List.length_map]
      refine Nat.le_trans (List.length_filter_le _ _) ?_
      rw [List.length_range]
      exact Nat.le_refl _
    have := log2_mono hle
    omega
  · have hnone : N.psi.parts[c]? = none := by rw [List.getElem?_eq_none_iff, h.core.len]; exact hc
    rw [PsiCoreRLE.rankReportW, hnone]
    refine le_bind (P := fun _ c => c = 0) (le_free fun _ _ => rfl) ?_
    rintro _ _ rfl
    exact le_bind (P := fun _ _ => False) le_none fun _ _ hf => hf.elim

theorem OK.lfW_val (h : N.OK T sa) (r : Range) (c : Nat) : (N.lfW r c).val = N.lf r c := by
  have hr : ∀ v, (N.psiRankW c v).val = N.psiRank c v := by
    intro v
    rw [psiRankW, psiRank]
    refine val_bind_eq (h.rankReportW_val c v) ?_
    rintro ⟨rank, s, e, k⟩; rfl
  rw [lfW, lf]
  exact val_bind_eq (hr _) fun _ => val_bind_eq (hr _) fun _ => val_bind_eq (val_free _) fun _ => rfl

theorem OK.lfW_le (h : N.OK T sa) (r : Range) (c : Nat) : (N.lfW r c).Le (fun _ k => k ≤ 2 * (Nat.log2 (nrun T sa) + 69)) := by
  have hr : ∀ v, (N.psiRankW c v).Le (fun _ k => k ≤ Nat.log2 (nrun T sa) + 69) := by
    intro v
    rw [psiRankW]
    refine le_bind (h.rankReportW_le c v) ?_
    rintro ⟨rank, s, e, k⟩ c1 h1
    exact le_pure (by omega)
  rw [lfW]
  refine le_bind (hr _) fun _ c1 h1 => le_bind (hr _) fun _ c2 h2 => ?_
  refine le_bind (P := fun _ c => c = 0) (le_free fun _ _ => rfl) ?_
  rintro _ _ rfl
  exact le_pure (by omega)

end PsiNav

/-! ## Count -/

namespace Functors
variable {ρ ν δ : Type} {F : Functors ρ ν δ} {lf : ρ → Nat → Cost ν}

theorem countW_val (h : ∀ r c, (lf r c).val = F.lf r c) (P : List Nat) : (F.countW lf P).val = F.count P := by
  have hl : ∀ (L : List Nat) (r : ρ), (F.countLoopW lf L r).val = F.countLoop L r := by
    intro L
    induction L with
    | nil => intro r; rfl
    | cons c L ih =>
      intro r
      rw [countLoopW, countLoop]
      exact val_ite rfl (val_bind_eq (h _ _) fun _ => ih _)
  rw [countW, count]
  exact val_bind_eq (hl _ _) fun _ => rfl

theorem countW_le {B : Nat} (h : ∀ r c, (lf r c).Le (fun _ k => k ≤ B)) (P : List Nat) : (F.countW lf P).Le (fun _ k => k ≤ P.length * B) := by
  have hl : ∀ (L : List Nat) (r : ρ), (F.countLoopW lf L r).Le (fun _ k => k ≤ L.length * B) := by
    intro L
    induction L with
    | nil => intro r; exact le_ret (Nat.zero_le _)
    | cons c L ih =>
      intro r
      rw [countLoopW]
      refine le_ite (fun _ => le_ret (Nat.zero_le _)) (fun _ => ?_)
      refine le_bind (h _ _) fun next k hk => (ih _).mono fun _ d hd => ?_
      rw [List.length_cons, Nat.succ_mul]; omega
  rw [countW]
  refine le_bind (hl _ _) fun r k hk => le_pure ?_
  rw [List.length_reverse] at hk
  omega

end Functors

/-! ## the block size of the built indexes -/

theorem constructBase_b {T sa : List Nat} {b : BaseItems} (h : constructBase T sa = some b) : b.bwtRle.b = 2 := by
  simp only [constructBase, Option.bind_eq_bind, Option.bind_eq_some_iff] at h
  obtain ⟨runs, -, rle, h2, h3⟩ := h
  obtain rfl := Option.some.inj h3
  change rle.b = 2
  unfold RLEString.build at h2
  split at h2
  · cases h2
  · rw [if_neg (by omega)] at h2
    rw [← Option.some.inj h2]

theorem RIndex.build_b {T sa : List Nat} {I : RIndex} (h : RIndex.build T sa = some I) : I.bwtRle.b = 2 := by
  simp only [RIndex.build, Option.bind_eq_bind, Option.bind_eq_some_iff] at h
  obtain ⟨b, hb, m, -, n, -, h3⟩ := h
  obtain rfl := Option.some.inj h3
  exact constructBase_b hb

theorem SrIndex.build_b {T sa : List Nat} {s : Nat} {I : SrIndex} (h : SrIndex.build T sa s = some I) : I.base.bwtRle.b = 2 := by
  simp only [SrIndex.build, Option.bind_eq_bind, Option.bind_eq_some_iff] at h
  obtain ⟨b, hb, _, -, _, -, _, -, _, -, _, -, _, -, h3⟩ := h
  obtain rfl := Option.some.inj h3
  exact constructBase_b hb

theorem SrIndexValid.build_b {T sa : List Nat} {s : Nat} {I : SrIndexValid} (h : SrIndexValid.build T sa s = some I) :
    I.sr.base.bwtRle.b = 2 := by
  simp only [SrIndexValid.build, Option.bind_eq_bind, Option.bind_eq_some_iff] at h
  obtain ⟨sr, hb, b, -, _, -, _, -, _, -, _, -, _, -, _, -, h3⟩ := h
  obtain rfl := Option.some.inj h3
  exact SrIndex.build_b hb

/-- the number of runs of the BWT, in the words of the specification -/
theorem runsBefore_bwtOf {T sa : List Nat} (hsa : IsSA T sa) : runsBefore (bwtOf T sa) T.length = nrun T sa := by
  rw [runsBefore, LegacyBuild.first_pos hsa, List.length_map, List.length_range]

end Sri
