import Verif.Spec
import Mathlib.Data.Nat.Count
import Mathlib.Data.List.Perm.Basic

/-!
# Suffix-array theory (helper lemmas)

LF, psi and the counting formulas that backward search relies on.
-/

namespace Sri
set_option autoImplicit false

/-! ## counting lemmas -/

theorem count_le_of_le (p : Nat → Prop) [DecidablePred p] {a b : Nat} (h : a ≤ b) :
    Nat.count p a ≤ Nat.count p b := Nat.count_monotone p h

/-- every rank between the counts at the ends of an interval is attained inside it -/
theorem exists_of_count_between (p : Nat → Prop) [DecidablePred p] {a b k : Nat}
    (h1 : Nat.count p a ≤ k) (h2 : k < Nat.count p b) :
    ∃ i, a ≤ i ∧ i < b ∧ p i ∧ Nat.count p i = k := by
  induction b with
  | zero => simp at h2
  | succ b ih =>
    by_cases hlt : k < Nat.count p b
    · obtain ⟨i, h1, h2, h3, h4⟩ := ih hlt
      exact ⟨i, h1, by omega, h3, h4⟩
    · rw [Nat.count_succ] at h2
      by_cases hp : p b
      · rw [if_pos hp] at h2
        refine ⟨b, ?_, by omega, hp, by omega⟩
        by_contra hab
        have hsucc := count_le_of_le p (show b + 1 ≤ a by omega)
        rw [Nat.count_succ, if_pos hp] at hsucc
        omega
      · rw [if_neg hp] at h2; omega

theorem count_congr {p q : Nat → Prop} [DecidablePred p] [DecidablePred q] {n : Nat}
    (h : ∀ k < n, (p k ↔ q k)) : Nat.count p n = Nat.count q n := by
  induction n with
  | zero => simp
  | succ n ih =>
    rw [Nat.count_succ, Nat.count_succ, ih (fun k hk => h k (by omega))]
    simp [h n (by omega)]

/-- a downward closed predicate on `[0,n)` is an initial segment -/
theorem down_closed_iff (p : Nat → Prop) [DecidablePred p] {n : Nat}
    (hd : ∀ i j, i ≤ j → j < n → p j → p i) {k : Nat} (hk : k < n) :
    p k ↔ k < Nat.count p n := by
  constructor
  · intro h
    have h1 : Nat.count p (k+1) = k+1 := Nat.count_iff_forall.2 (fun m hm => hd m k (by omega) hk h)
    have := count_le_of_le p (show k+1 ≤ n by omega)
    omega
  · intro h
    by_contra hn
    have h0 : ∀ m, k ≤ m → m < n → ¬ p m := fun m h1 h2 h3 => hn (hd k m h1 h2 h3)
    have : ∀ m, k ≤ m → m ≤ n → Nat.count p m ≤ k := by
      intro m hm
      induction m, hm using Nat.le_induction with
      | base => intro _; exact Nat.count_le p
      | succ m hm ih =>
        intro hmn
        rw [Nat.count_succ, if_neg (h0 m hm (by omega))]
        exact ih (by omega)
    have := this n (by omega) (le_refl n)
    omega

theorem countP_eq_count_range {α} (l : List α) (p : α → Bool) (d : α) :
    l.countP p = Nat.count (fun i => p (l.getD i d) = true) l.length := by
  induction l with
  | nil => simp
  | cons a l ih =>
    rw [List.countP_cons, List.length_cons, Nat.count_succ', ih]
    simp

/-! ## suffixes -/

/-- text character at a position -/
def tx (T : List Nat) (p : Nat) : Nat := T.getD p 0

/-- suffix-array entry -/
def saAt (sa : List Nat) (i : Nat) : Nat := sa.getD i 0

/-- inverse suffix array -/
def isaOf (sa : List Nat) (p : Nat) : Nat := sa.idxOf p

/-- BWT character of suffix-array position `i`: the character circularly preceding `SA[i]` -/
def bwtAt (T sa : List Nat) (i : Nat) : Nat := tx T ((saAt sa i + T.length - 1) % T.length)

/-- LF: suffix-array position of the suffix circularly preceding `SA[i]` -/
def lfAt (T sa : List Nat) (i : Nat) : Nat := isaOf sa ((saAt sa i + T.length - 1) % T.length)

/-- psi: suffix-array position of the suffix circularly following `SA[i]` -/
def psiAt (T sa : List Nat) (i : Nat) : Nat := isaOf sa ((saAt sa i + 1) % T.length)

/-- number of characters of the text smaller than `c` -/
def cumC (T : List Nat) (c : Nat) : Nat := T.countP (fun x => decide (x < c))

theorem IsText.pos {T} (hT : IsText T) : 0 < T.length := by
  obtain ⟨u, rfl, _⟩ := hT; simp

theorem tx_lt {T : List Nat} {p : Nat} (h : p < T.length) : tx T p = T[p] := by
  simp [tx, h]

theorem drop_eq {T : List Nat} {p : Nat} (h : p < T.length) : T.drop p = tx T p :: T.drop (p+1) := by
  rw [tx_lt h]; exact List.drop_eq_getElem_cons h

theorem IsText.tx_zero_iff {T} (hT : IsText T) {p : Nat} (h : p < T.length) :
    tx T p = 0 ↔ p = T.length - 1 := by
  obtain ⟨u, rfl, hu⟩ := hT
  simp at h
  rw [tx]
  simp only [List.length_append, List.length_cons, List.length_nil]
  rcases Nat.lt_or_ge p u.length with hp | hp
  · have : (u ++ [0]).getD p 0 = u[p] := by
      rw [List.getD_eq_getElem?_getD, List.getElem?_append_left hp]; simp [hp]
    rw [this]
    constructor
    · intro h0; exact absurd h0 (hu _ (List.getElem_mem hp))
    · omega
  · have : p = u.length := by omega
    subst this; simp

section
variable {T sa : List Nat}

theorem IsSA.length (hsa : IsSA T sa) : sa.length = T.length := by
  simpa using hsa.1.length_eq

theorem IsSA.nodup (hsa : IsSA T sa) : sa.Nodup := hsa.1.nodup_iff.2 List.nodup_range

theorem IsSA.mem_iff (hsa : IsSA T sa) {p : Nat} : p ∈ sa ↔ p < T.length := by
  rw [hsa.1.mem_iff]; simp

theorem saAt_eq (hsa : IsSA T sa) {i : Nat} (h : i < T.length) :
    saAt sa i = sa[i]'(by rw [hsa.length]; exact h) := by
  simp [saAt, hsa.length, h]

theorem saAt_lt (hsa : IsSA T sa) {i : Nat} (h : i < T.length) : saAt sa i < T.length := by
  rw [saAt_eq hsa h]; exact hsa.mem_iff.1 (List.getElem_mem _)

theorem isaOf_lt (hsa : IsSA T sa) {p : Nat} (h : p < T.length) : isaOf sa p < T.length := by
  rw [← hsa.length]; exact List.idxOf_lt_length_iff.2 (hsa.mem_iff.2 h)

theorem saAt_isaOf (hsa : IsSA T sa) {p : Nat} (h : p < T.length) : saAt sa (isaOf sa p) = p := by
  rw [saAt_eq hsa (isaOf_lt hsa h)]; simp [isaOf]

theorem isaOf_saAt (hsa : IsSA T sa) {i : Nat} (h : i < T.length) : isaOf sa (saAt sa i) = i := by
  rw [saAt_eq hsa h]; exact hsa.nodup.idxOf_getElem _ _

theorem saAt_inj (hsa : IsSA T sa) {i j : Nat} (hi : i < T.length) (hj : j < T.length)
    (h : saAt sa i = saAt sa j) : i = j := by
  rw [← isaOf_saAt hsa hi, h, isaOf_saAt hsa hj]

theorem sa_lt_of_lt (hsa : IsSA T sa) {i j : Nat} (hij : i < j) (hj : j < T.length) :
    T.drop (saAt sa i) < T.drop (saAt sa j) := by
  rw [saAt_eq hsa (by omega), saAt_eq hsa hj]
  exact (List.pairwise_iff_getElem.1 hsa.2) i j _ _ hij

theorem sa_lt_iff (hsa : IsSA T sa) {i j : Nat} (hi : i < T.length) (hj : j < T.length) :
    i < j ↔ T.drop (saAt sa i) < T.drop (saAt sa j) := by
  constructor
  · intro h; exact sa_lt_of_lt hsa h hj
  · intro h
    rcases Nat.lt_trichotomy i j with h1 | h1 | h1
    · exact h1
    · subst h1; exact absurd h (List.lt_irrefl _)
    · exact absurd h (List.lt_asymm (sa_lt_of_lt hsa h1 hi))

/-- the suffix array is sorted by first character -/
theorem first_char_mono (hsa : IsSA T sa) {i j : Nat} (hij : i ≤ j) (hj : j < T.length) :
    tx T (saAt sa i) ≤ tx T (saAt sa j) := by
  rcases Nat.eq_or_lt_of_le hij with h | h
  · subst h; exact Nat.le_refl _
  · have := sa_lt_of_lt hsa h hj
    rw [drop_eq (saAt_lt hsa (by omega)), drop_eq (saAt_lt hsa hj), List.cons_lt_cons_iff] at this
    omega

theorem cumC_eq_count (hsa : IsSA T sa) (c : Nat) :
    cumC T c = Nat.count (fun k => tx T (saAt sa k) < c) T.length := by
  have h1 : (sa.map (tx T)).Perm T := by
    have h := hsa.1.map (tx T)
    have h2 : (List.range T.length).map (tx T) = T := by
      apply List.ext_getElem
      · simp
      · intro i h1 h2; simp [tx_lt h2]
    rwa [h2] at h
  rw [cumC, ← h1.countP_eq, countP_eq_count_range _ _ 0]
  simp only [List.length_map, hsa.length]
  apply count_congr
  intro k hk
  simp [saAt, hsa.length, hk]

theorem lt_cumC_iff (hsa : IsSA T sa) {c k : Nat} (hk : k < T.length) :
    tx T (saAt sa k) < c ↔ k < cumC T c := by
  rw [cumC_eq_count hsa]
  exact down_closed_iff (fun k => tx T (saAt sa k) < c)
    (fun i j hij hj h => Nat.lt_of_le_of_lt (first_char_mono hsa hij hj) h) hk

theorem cumC_le (c : Nat) : cumC T c ≤ T.length := List.countP_le_length

/-! ## LF and psi -/

theorem prev_lt (_hsa : IsSA T sa) {i : Nat} (h : i < T.length) :
    (saAt sa i + T.length - 1) % T.length < T.length := Nat.mod_lt _ (by omega)

theorem lfAt_lt (hsa : IsSA T sa) {i : Nat} (h : i < T.length) : lfAt T sa i < T.length :=
  isaOf_lt hsa (prev_lt hsa h)

theorem psiAt_lt (hsa : IsSA T sa) {i : Nat} (h : i < T.length) : psiAt T sa i < T.length :=
  isaOf_lt hsa (Nat.mod_lt _ (by omega))

theorem saAt_lfAt (hsa : IsSA T sa) {i : Nat} (h : i < T.length) :
    saAt sa (lfAt T sa i) = (saAt sa i + T.length - 1) % T.length :=
  saAt_isaOf hsa (prev_lt hsa h)

theorem saAt_psiAt (hsa : IsSA T sa) {i : Nat} (h : i < T.length) :
    saAt sa (psiAt T sa i) = (saAt sa i + 1) % T.length :=
  saAt_isaOf hsa (Nat.mod_lt _ (by omega))

theorem mod_pred_succ {n v : Nat} (h : v < n) : ((v + n - 1) % n + 1) % n = v := by
  rcases Nat.eq_zero_or_pos v with h0 | h0
  · subst h0
    have : (0 + n - 1) % n = n - 1 := by rw [Nat.mod_eq_of_lt] <;> omega
    rw [this, show n - 1 + 1 = n by omega, Nat.mod_self]
  · have : (v + n - 1) % n = v - 1 := by
      rw [show v + n - 1 = (v - 1) + n by omega, Nat.add_mod_right, Nat.mod_eq_of_lt (by omega)]
    rw [this, show v - 1 + 1 = v by omega, Nat.mod_eq_of_lt h]

theorem mod_succ_pred {n v : Nat} (h : v < n) : ((v + 1) % n + n - 1) % n = v := by
  rcases Nat.lt_or_ge (v + 1) n with h0 | h0
  · rw [Nat.mod_eq_of_lt h0, show v + 1 + n - 1 = v + n by omega, Nat.add_mod_right,
      Nat.mod_eq_of_lt h]
  · have : v + 1 = n := by omega
    rw [this, Nat.mod_self, show 0 + n - 1 = v by omega, Nat.mod_eq_of_lt h]

theorem pred_mod_of_pos {n v : Nat} (h : v < n) (h0 : 0 < v) : (v + n - 1) % n = v - 1 := by
  rw [show v + n - 1 = (v - 1) + n by omega, Nat.add_mod_right, Nat.mod_eq_of_lt (by omega)]

theorem psi_lf (hsa : IsSA T sa) {i : Nat} (h : i < T.length) : psiAt T sa (lfAt T sa i) = i := by
  rw [psiAt, saAt_lfAt hsa h, mod_pred_succ (saAt_lt hsa h), isaOf_saAt hsa h]

theorem lf_psi (hsa : IsSA T sa) {i : Nat} (h : i < T.length) : lfAt T sa (psiAt T sa i) = i := by
  rw [lfAt, saAt_psiAt hsa h, mod_succ_pred (saAt_lt hsa h), isaOf_saAt hsa h]

theorem lf_inj (hsa : IsSA T sa) {i j : Nat} (hi : i < T.length) (hj : j < T.length)
    (h : lfAt T sa i = lfAt T sa j) : i = j := by
  rw [← psi_lf hsa hi, h, psi_lf hsa hj]

theorem bwtAt_eq (hsa : IsSA T sa) {i : Nat} (h : i < T.length) :
    bwtAt T sa i = tx T (saAt sa (lfAt T sa i)) := by
  rw [saAt_lfAt hsa h]; rfl

theorem bwtAt_zero_iff (hT : IsText T) (hsa : IsSA T sa) {i : Nat} (h : i < T.length) :
    bwtAt T sa i = 0 ↔ saAt sa i = 0 := by
  have hv := saAt_lt hsa h
  rw [bwtAt, hT.tx_zero_iff (prev_lt hsa h)]
  rcases Nat.eq_zero_or_pos (saAt sa i) with h0 | h0
  · rw [h0]; simp
  · rw [pred_mod_of_pos hv h0]; omega

/-- LF preserves the order of positions with the same BWT character -/
theorem lf_lt_iff (hT : IsText T) (hsa : IsSA T sa) {i j : Nat} (hi : i < T.length)
    (hj : j < T.length) (hc : bwtAt T sa i = bwtAt T sa j) :
    lfAt T sa i < lfAt T sa j ↔ i < j := by
  by_cases h0 : bwtAt T sa i = 0
  · have h1 := (bwtAt_zero_iff hT hsa hi).1 h0
    have h2 := (bwtAt_zero_iff hT hsa hj).1 (hc ▸ h0)
    have := saAt_inj hsa hi hj (by omega)
    subst this; simp
  · have h1 : 0 < saAt sa i := by
      have := mt (bwtAt_zero_iff hT hsa hi).2 h0; omega
    have h2 : 0 < saAt sa j := by
      have := mt (bwtAt_zero_iff hT hsa hj).2 (hc ▸ h0); omega
    have hvi := saAt_lt hsa hi
    have hvj := saAt_lt hsa hj
    rw [sa_lt_iff hsa (lfAt_lt hsa hi) (lfAt_lt hsa hj), sa_lt_iff hsa hi hj,
      drop_eq (saAt_lt hsa (lfAt_lt hsa hi)), drop_eq (saAt_lt hsa (lfAt_lt hsa hj)),
      List.cons_lt_cons_iff, ← bwtAt_eq hsa hi, ← bwtAt_eq hsa hj, saAt_lfAt hsa hi,
      saAt_lfAt hsa hj, pred_mod_of_pos hvi h1, pred_mod_of_pos hvj h2, hc,
      Nat.sub_add_cancel h1, Nat.sub_add_cancel h2]
    simp

/-- the suffixes starting with `c` form the block `[C c, C (c+1))` -/
theorem block_iff (hsa : IsSA T sa) {c k : Nat} (hk : k < T.length) :
    tx T (saAt sa k) = c ↔ cumC T c ≤ k ∧ k < cumC T (c+1) := by
  have h1 := lt_cumC_iff hsa (c := c) hk
  have h2 := lt_cumC_iff hsa (c := c+1) hk
  omega

theorem count_split_lt (p : Nat → Prop) [DecidablePred p] (a m : Nat) (hp : ∀ k < a, ¬ p k)
    (hq : ∀ k, a ≤ k → k < a + m → p k) : Nat.count p (a + m) = m := by
  rw [Nat.count_add, Nat.count_iff_forall_not.2 hp,
    (Nat.count_iff_forall (p := fun k => p (a + k))).2 (fun k hk => hq _ (by omega) (by omega))]
  omega

/-- **LF formula**: `LF(i) = C[BWT[i]] + rank_{BWT[i]}(i)`. -/
theorem lf_formula (hT : IsText T) (hsa : IsSA T sa) {i : Nat} (hi : i < T.length) :
    lfAt T sa i = cumC T (bwtAt T sa i)
      + Nat.count (fun j => bwtAt T sa j = bwtAt T sa i) i := by
  set c := bwtAt T sa i with hc
  have hlt := lfAt_lt hsa hi
  have hblk : cumC T c ≤ lfAt T sa i ∧ lfAt T sa i < cumC T (c+1) :=
    (block_iff hsa hlt).1 ((bwtAt_eq hsa hi).symm.trans hc.symm)
  -- the positions of the block below `LF i` are in bijection with the `j < i` with `BWT j = c`
  have hcard : Nat.count (fun j => bwtAt T sa j = c) i
      = Nat.count (fun k => tx T (saAt sa k) = c) (lfAt T sa i) := by
    rw [Nat.count_eq_card_filter_range, Nat.count_eq_card_filter_range]
    apply Finset.card_bij (fun j _ => lfAt T sa j)
    · intro j hj
      simp only [Finset.mem_filter, Finset.mem_range] at hj ⊢
      have hjn : j < T.length := by omega
      exact ⟨(lf_lt_iff hT hsa hjn hi (hj.2.trans hc)).2 hj.1, by rw [← bwtAt_eq hsa hjn]; exact hj.2⟩
    · intro a ha b hb hab
      simp only [Finset.mem_filter, Finset.mem_range] at ha hb
      exact lf_inj hsa (by omega) (by omega) hab
    · intro k hk
      simp only [Finset.mem_filter, Finset.mem_range] at hk
      have hkn : k < T.length := by omega
      have hpn := psiAt_lt hsa hkn
      refine ⟨psiAt T sa k, ?_, lf_psi hsa hkn⟩
      simp only [Finset.mem_filter, Finset.mem_range]
      have hb : bwtAt T sa (psiAt T sa k) = c := by rw [bwtAt_eq hsa hpn, lf_psi hsa hkn]; exact hk.2
      refine ⟨?_, hb⟩
      rw [← lf_lt_iff hT hsa hpn hi (hb.trans hc), lf_psi hsa hkn]; exact hk.1
  rw [hcard]
  obtain ⟨m, hm⟩ := Nat.exists_eq_add_of_le hblk.1
  rw [hm, count_split_lt]
  · intro k hk h
    have := (block_iff hsa (show k < T.length by omega)).1 h
    omega
  · intro k h1 h2
    exact (block_iff hsa (show k < T.length by omega)).2 ⟨h1, by omega⟩

/-- total number of `c` in the BWT is the size of the block of `c` -/
theorem bwt_count_total (hT : IsText T) (hsa : IsSA T sa) (c : Nat) :
    cumC T c + Nat.count (fun j => bwtAt T sa j = c) T.length = cumC T (c+1) := by
  have hcard : Nat.count (fun j => bwtAt T sa j = c) T.length
      = Nat.count (fun k => tx T (saAt sa k) = c) T.length := by
    rw [Nat.count_eq_card_filter_range, Nat.count_eq_card_filter_range]
    apply Finset.card_bij (fun j _ => lfAt T sa j)
    · intro j hj
      simp only [Finset.mem_filter, Finset.mem_range] at hj ⊢
      exact ⟨lfAt_lt hsa hj.1, by rw [← bwtAt_eq hsa hj.1]; exact hj.2⟩
    · intro a ha b hb hab
      simp only [Finset.mem_filter, Finset.mem_range] at ha hb
      exact lf_inj hsa (by omega) (by omega) hab
    · intro k hk
      simp only [Finset.mem_filter, Finset.mem_range] at hk
      refine ⟨psiAt T sa k, ?_, lf_psi hsa hk.1⟩
      simp only [Finset.mem_filter, Finset.mem_range]
      refine ⟨psiAt_lt hsa hk.1, ?_⟩
      rw [bwtAt_eq hsa (psiAt_lt hsa hk.1), lf_psi hsa hk.1]; exact hk.2
  have hT' := hT.pos
  rw [hcard]
  have h1 : cumC T c ≤ cumC T (c+1) := by
    apply List.countP_mono_left; intro x _ hx; simp at hx ⊢; omega
  obtain ⟨m, hm⟩ := Nat.exists_eq_add_of_le h1
  have h2 := cumC_le (T := T) (c+1)
  obtain ⟨m', hm'⟩ := Nat.exists_eq_add_of_le h2
  have : Nat.count (fun k => tx T (saAt sa k) = c) T.length = m := by
    rw [hm', Nat.count_add, hm, count_split_lt]
    · have : Nat.count (fun k => tx T (saAt sa (cumC T c + m + k)) = c) m' = 0 := by
        rw [Nat.count_iff_forall_not]
        intro k hk h
        have := (block_iff hsa (show cumC T c + m + k < T.length by omega)).1 h
        omega
      omega
    · intro k hk h
      have := (block_iff hsa (show k < T.length by omega)).1 h
      omega
    · intro k h1 h2
      exact (block_iff hsa (show k < T.length by omega)).2 ⟨h1, by omega⟩
  omega

/-- The suffix-array positions of the suffixes that start with `P`. -/
def MatchAt (P T sa : List Nat) (i : Nat) : Prop := i < T.length ∧ OccursAt P T (saAt sa i)

/-- `[a,b)` is exactly the set of suffix-array positions whose suffix starts with `P`
    (`a = b` possible: no occurrence) -/
def IsRange (P T sa : List Nat) (a b : Nat) : Prop :=
  a ≤ b ∧ b ≤ T.length ∧ ∀ i, MatchAt P T sa i ↔ a ≤ i ∧ i < b

theorem isRange_nil (hsa : IsSA T sa) : IsRange [] T sa 0 T.length := by
  refine ⟨by omega, by omega, fun i => ?_⟩
  simp only [MatchAt, OccursAt]
  constructor
  · intro h; exact ⟨by omega, h.1⟩
  · intro h; exact ⟨h.2, by have := saAt_lt hsa h.2; simp; omega, by simp⟩

theorem occursAt_cons {c : Nat} {P : List Nat} {p : Nat} :
    OccursAt (c :: P) T p ↔ p < T.length ∧ tx T p = c ∧ OccursAt P T (p+1) := by
  unfold OccursAt
  constructor
  · rintro ⟨h1, h2⟩
    simp only [List.length_cons] at h1 h2
    have hp : p < T.length := by omega
    rw [drop_eq hp, List.take_succ_cons] at h2
    injection h2 with h2 h3
    exact ⟨hp, h2, by omega, h3⟩
  · rintro ⟨hp, h1, h2, h3⟩
    simp only [List.length_cons]
    refine ⟨by omega, ?_⟩
    rw [drop_eq hp, List.take_succ_cons, h1, h3]

/-- character part of an occurrence of `cP` read through LF (for `c ≠ 0`) -/
theorem match_cons_iff (hT : IsText T) (hsa : IsSA T sa) {c : Nat} (hc : c ≠ 0) {P : List Nat}
    {i : Nat} (hi : i < T.length) :
    MatchAt (c :: P) T sa (lfAt T sa i) ↔ bwtAt T sa i = c ∧ MatchAt P T sa i := by
  have hl := lfAt_lt hsa hi
  have hv := saAt_lt hsa hi
  simp only [MatchAt, occursAt_cons]
  rw [← bwtAt_eq hsa hi]
  constructor
  · rintro ⟨_, _, h1, h2⟩
    have h0 : 0 < saAt sa i := by
      rcases Nat.eq_zero_or_pos (saAt sa i) with h | h
      · exact absurd (h1.symm.trans ((bwtAt_zero_iff hT hsa hi).2 h)) hc
      · exact h
    rw [saAt_lfAt hsa hi, pred_mod_of_pos hv h0, Nat.sub_add_cancel h0] at h2
    exact ⟨h1, hi, h2⟩
  · rintro ⟨h1, _, h2⟩
    have h0 : 0 < saAt sa i := by
      rcases Nat.eq_zero_or_pos (saAt sa i) with h | h
      · exact absurd (h1.symm.trans ((bwtAt_zero_iff hT hsa hi).2 h)) hc
      · exact h
    refine ⟨hl, saAt_lt hsa hl, h1, ?_⟩
    rw [saAt_lfAt hsa hi, pred_mod_of_pos hv h0, Nat.sub_add_cancel h0]
    exact h2

/-- **Backward-search step**, for a character other than the terminator. -/
theorem backward_step (hT : IsText T) (hsa : IsSA T sa) {P : List Nat} {c a b : Nat} (hc : c ≠ 0)
    (h : IsRange P T sa a b) :
    IsRange (c :: P) T sa
      (cumC T c + Nat.count (fun j => bwtAt T sa j = c) a)
      (cumC T c + Nat.count (fun j => bwtAt T sa j = c) b) := by
  obtain ⟨hab, hbn, hiff⟩ := h
  have hb := count_le_of_le (fun j => bwtAt T sa j = c) hbn
  have htot := bwt_count_total hT hsa c
  refine ⟨?_, ?_, ?_⟩
  · have := count_le_of_le (fun j => bwtAt T sa j = c) hab; omega
  · have := cumC_le (T := T) (c+1); omega
  · intro k
    constructor
    · intro hk
      have hkn := hk.1
      have hpn := psiAt_lt hsa hkn
      rw [← lf_psi hsa hkn] at hk
      obtain ⟨h1, h2⟩ := (match_cons_iff hT hsa hc hpn).1 hk
      obtain ⟨h3, h4⟩ := (hiff _).1 h2
      have hf := lf_formula hT hsa hpn
      rw [lf_psi hsa hkn, h1] at hf
      rw [hf]
      have := count_le_of_le (fun j => bwtAt T sa j = c) h3
      have := Nat.count_strict_mono (p := fun j => bwtAt T sa j = c) h1 h4
      omega
    · rintro ⟨h1, h2⟩
      obtain ⟨i, h3, h4, h5, h6⟩ := exists_of_count_between (fun j => bwtAt T sa j = c)
        (show Nat.count (fun j => bwtAt T sa j = c) a ≤ k - cumC T c by omega)
        (show k - cumC T c < Nat.count (fun j => bwtAt T sa j = c) b by omega)
      have hin : i < T.length := by omega
      have hf := lf_formula hT hsa hin
      rw [h5, h6] at hf
      have : lfAt T sa i = k := by omega
      rw [← this, match_cons_iff hT hsa hc hin]
      exact ⟨h5, (hiff i).2 ⟨h3, h4⟩⟩

end

end Sri
