import Verif.Proofs.Sdsl
/-! # Run-length encodings -/
namespace Sri
set_option autoImplicit false

/-- maximal runs `(symbol, length)` of a sequence -/
def rle : List Nat → List (Nat × Nat)
  | [] => []
  | x :: xs =>
    match rle xs with
    | [] => [(x, 1)]
    | (y, l) :: R => if x = y then (y, l + 1) :: R else (x, 1) :: (y, l) :: R

/-- the sequence with the given runs -/
def expand (R : List (Nat × Nat)) : List Nat := R.flatMap (fun q => List.replicate q.2 q.1)

theorem rle_cons (x : Nat) (xs : List Nat) : ∃ l R, rle (x :: xs) = (x, l + 1) :: R := by
  rw [rle]
  split
  · exact ⟨0, [], rfl⟩
  · split
    · rename_i h; subst h; exact ⟨_, _, rfl⟩
    · exact ⟨0, _, rfl⟩

theorem rle_eq_same (x : Nat) (xs : List Nat) {l R} (h : rle (x :: xs) = (x, l) :: R) :
    rle (x :: x :: xs) = (x, l + 1) :: R := by
  rw [rle, h]; simp

theorem rle_eq_diff {x y : Nat} (hxy : x ≠ y) (xs : List Nat) :
    rle (x :: y :: xs) = (x, 1) :: rle (y :: xs) := by
  obtain ⟨l, R, h⟩ := rle_cons y xs
  rw [rle, h]; simp [hxy]

theorem expand_rle (xs : List Nat) : expand (rle xs) = xs := by
  induction xs with
  | nil => rfl
  | cons x xs ih =>
    rw [rle]
    split
    · rename_i h; rw [h] at ih; simp [expand] at ih ⊢; exact ih
    · rename_i y l R h
      rw [h] at ih
      split
      · rename_i h; subst h
        simp only [expand, List.flatMap_cons, List.replicate_succ, List.cons_append] at ih ⊢
        rw [ih]
      · simp only [expand, List.flatMap_cons] at ih ⊢
        rw [ih]; rfl

theorem rle_pos (xs : List Nat) : ∀ q ∈ rle xs, 0 < q.2 := by
  induction xs with
  | nil => simp [rle]
  | cons x xs ih =>
    rw [rle]
    split
    · simp
    · rename_i y l R h
      rw [h] at ih
      split
      · intro q hq
        rcases List.mem_cons.1 hq with rfl | hq
        · simp
        · exact ih q (by simp [hq])
      · intro q hq
        rcases List.mem_cons.1 hq with rfl | hq
        · simp
        · exact ih q hq

/-- neighbouring runs have different symbols -/
def Alternating : List (Nat × Nat) → Prop
  | [] => True
  | [_] => True
  | p :: q :: R => p.1 ≠ q.1 ∧ Alternating (q :: R)

theorem rle_alternating (xs : List Nat) : Alternating (rle xs) := by
  induction xs with
  | nil => simp [rle, Alternating]
  | cons x xs ih =>
    rw [rle]
    split
    · simp [Alternating]
    · rename_i y l R h
      rw [h] at ih
      split
      · cases R with
        | nil => simp [Alternating]
        | cons q R => exact ih
      · rename_i hne; exact ⟨hne, ih⟩

theorem Alternating.getElem {R : List (Nat × Nat)} (h : Alternating R) {k : Nat} (hk : k + 1 < R.length) :
    (R[k]'(by omega)).1 ≠ (R[k+1]).1 := by
  induction R generalizing k with
  | nil => simp at hk
  | cons p R ih =>
    cases R with
    | nil => simp at hk
    | cons q R =>
      cases k with
      | zero => exact h.1
      | succ k => exact ih h.2 (by simpa using hk)

/-- first position of the `k`-th run -/
def rstart (R : List (Nat × Nat)) (k : Nat) : Nat := ((R.take k).map (·.2)).sum

@[simp] theorem rstart_zero (R) : rstart R 0 = 0 := by simp [rstart]

theorem rstart_succ {R : List (Nat × Nat)} {k : Nat} (h : k < R.length) :
    rstart R (k+1) = rstart R k + (R[k]).2 := by
  rw [rstart, ← List.take_append_getElem h, List.map_append, List.sum_append]
  simp [rstart]

theorem rstart_mono (R : List (Nat × Nat)) {a b : Nat} (h : a ≤ b) : rstart R a ≤ rstart R b := by
  induction b with
  | zero => have : a = 0 := by omega
            subst this; exact Nat.le_refl _
  | succ b ih =>
    rcases Nat.lt_or_eq_of_le h with h | rfl
    · have := ih (by omega)
      by_cases hb : b < R.length
      · rw [rstart_succ hb]; omega
      · have : rstart R (b+1) = rstart R b := by
          simp [rstart, List.take_of_length_le (show R.length ≤ b by omega),
            List.take_of_length_le (show R.length ≤ b+1 by omega)]
        omega
    · exact Nat.le_refl _

theorem rstart_strict {R : List (Nat × Nat)} (hp : ∀ q ∈ R, 0 < q.2) {a b : Nat} (h : a < b)
    (hb : b ≤ R.length) : rstart R a < rstart R b := by
  have h1 := rstart_mono R (show a + 1 ≤ b by omega)
  rw [rstart_succ (by omega)] at h1
  have := hp R[a] (List.getElem_mem _)
  omega

theorem length_expand (R : List (Nat × Nat)) : (expand R).length = rstart R R.length := by
  simp [expand, rstart, List.length_flatMap]

theorem rstart_find (R : List (Nat × Nat)) {i : Nat} (h : i < rstart R R.length) :
    ∃ k, k < R.length ∧ rstart R k ≤ i ∧ i < rstart R (k+1) := by
  have key : ∀ m, m ≤ R.length → i < rstart R m → ∃ k, k < m ∧ rstart R k ≤ i ∧ i < rstart R (k+1) := by
    intro m
    induction m with
    | zero => intro _ h; simp at h
    | succ m ih =>
      intro hm hi
      by_cases h : i < rstart R m
      · obtain ⟨k, hk, h1, h2⟩ := ih (by omega) h; exact ⟨k, by omega, h1, h2⟩
      · exact ⟨m, by omega, by omega, hi⟩
  obtain ⟨k, hk, h1, h2⟩ := key R.length (Nat.le_refl _) h
  exact ⟨k, hk, h1, h2⟩

theorem rstart_unique {R : List (Nat × Nat)} {i k m : Nat} (h1 : rstart R k ≤ i) (h2 : i < rstart R (k+1))
    (h3 : rstart R m ≤ i) (h4 : i < rstart R (m+1)) : k = m := by
  rcases Nat.lt_trichotomy k m with h | h | h
  · have := rstart_mono R (show k + 1 ≤ m by omega); omega
  · exact h
  · have := rstart_mono R (show m + 1 ≤ k by omega); omega

theorem take_expand {R : List (Nat × Nat)} {i k : Nat} (hk : k < R.length) (h1 : rstart R k ≤ i)
    (h2 : i ≤ rstart R (k+1)) :
    (expand R).take i = expand (R.take k) ++ List.replicate (i - rstart R k) (R[k]).1 := by
  induction R generalizing i k with
  | nil => simp at hk
  | cons q R ih =>
    cases k with
    | zero =>
      simp [rstart] at h2
      simp [expand, rstart]
      rw [List.take_append_of_le_length (by simpa using h2)]
      simp [List.take_replicate, Nat.min_eq_left h2]
    | succ k =>
      have e : ∀ m, rstart (q :: R) (m+1) = q.2 + rstart R m := by intro m; simp [rstart]
      rw [e] at h1 h2
      have := ih (i := i - q.2) (k := k) (by simpa using hk) (by omega) (by omega)
      simp only [expand, List.flatMap_cons, List.take_succ_cons, List.getElem_cons_succ] at this ⊢
      rw [List.take_append, List.length_replicate, this, List.take_of_length_le (by simp; omega), e]
      simp [Nat.sub_sub]

theorem getElem_expand {R : List (Nat × Nat)} {i k : Nat} (hk : k < R.length) (h1 : rstart R k ≤ i)
    (h2 : i < rstart R (k+1)) : (expand R)[i]? = some (R[k]).1 := by
  have : ((expand R).take (i+1))[i]? = some (R[k]).1 := by
    rw [take_expand hk (by omega) (by omega)]
    have hl : (expand (R.take k)).length = rstart R k := by
      rw [length_expand, rstart, List.take_length, rstart]
    rw [List.getElem?_append_right (by omega), hl]
    simp [List.getElem?_replicate]
    omega
  simpa [List.getElem?_take] using this

/-- number of occurrences of `c` in the first `k` runs -/
def csum (R : List (Nat × Nat)) (c k : Nat) : Nat :=
  (((R.take k).filter (fun q => q.1 == c)).map (·.2)).sum

theorem count_expand (R : List (Nat × Nat)) (c : Nat) :
    (expand R).count c = csum R c R.length := by
  induction R with
  | nil => simp [expand, csum]
  | cons q R ih =>
    simp only [expand, csum, List.flatMap_cons, List.count_append, List.take_length] at ih ⊢
    rw [ih, List.filter_cons]
    by_cases h : q.1 = c
    · simp [h]
    · simp [h, List.count_replicate]

theorem count_take_expand {R : List (Nat × Nat)} {i k : Nat} (c : Nat) (hk : k < R.length)
    (h1 : rstart R k ≤ i) (h2 : i ≤ rstart R (k+1)) :
    ((expand R).take i).count c = csum R c k + if (R[k]).1 = c then i - rstart R k else 0 := by
  rw [take_expand hk h1 h2, List.count_append, count_expand, List.count_replicate]
  congr 1
  · rw [csum, List.take_length, csum]
  · by_cases h : (R[k]).1 = c <;> simp [h]

theorem filter_take {α} (l : List α) (p : α → Bool) (q : Nat) :
    (l.filter p).take ((l.take q).countP p) = (l.take q).filter p := by
  conv => lhs; rw [← List.take_append_drop q l, List.filter_append]
  rw [List.take_left' (by rw [List.countP_eq_length_filter, List.take_append_drop])]

theorem filter_getElem {α} (l : List α) (p : α → Bool) {q : Nat} (hq : q < l.length) (hp : p l[q] = true) :
    (l.filter p)[(l.take q).countP p]? = some l[q] := by
  have h : l = l.take q ++ l[q] :: l.drop (q+1) := by simp
  conv => lhs; rw [h, List.filter_append, List.filter_cons_of_pos hp]
  rw [← h, List.countP_eq_length_filter]
  simp

theorem csum_succ {R : List (Nat × Nat)} {k c : Nat} (h : k < R.length) :
    csum R c (k+1) = csum R c k + if (R[k]).1 = c then (R[k]).2 else 0 := by
  have e : R.take (k+1) = R.take k ++ [R[k]] := (List.take_append_getElem h).symm
  rw [csum, e, List.filter_append, List.map_append, List.sum_append, ← csum, List.filter_singleton]
  by_cases h : (R[k]).1 = c
  · simp [h]
  · have : ((R[k]).1 == c) = false := by simp [h]
    simp [h, this]

/-- unary encoding: a block of `l` bits, the last one being the given bit -/
def un (L : List (Nat × Bool)) : List Bool :=
  L.flatMap (fun q => List.replicate (q.1 - 1) false ++ [q.2])

/-- start of the `k`-th block -/
def ustart (L : List (Nat × Bool)) (k : Nat) : Nat := ((L.take k).map (·.1)).sum

theorem ustart_succ {L : List (Nat × Bool)} {k : Nat} (h : k < L.length) :
    ustart L (k+1) = ustart L k + (L[k]).1 := by
  rw [ustart, ← List.take_append_getElem h, List.map_append, List.sum_append]
  simp [ustart]

theorem ustart_cons (q : Nat × Bool) (L) (m : Nat) : ustart (q :: L) (m+1) = q.1 + ustart L m := by simp [ustart]

theorem length_un {L : List (Nat × Bool)} (hp : ∀ q ∈ L, 0 < q.1) : (un L).length = ustart L L.length := by
  induction L with
  | nil => simp [un, ustart]
  | cons q L ih =>
    have := ih (fun q hq => hp q (by simp [hq]))
    have h0 := hp q (by simp)
    simp only [un, List.flatMap_cons, List.length_append, List.length_replicate, List.length_cons, List.length_nil, ustart_cons] at this ⊢
    omega

theorem count_un (L : List (Nat × Bool)) : (un L).count true = L.countP (·.2) := by
  induction L with
  | nil => simp [un]
  | cons q L ih =>
    simp only [un, List.flatMap_cons, List.count_append] at ih ⊢
    rw [ih, List.countP_cons]
    cases h : q.2 <;> simp [List.count_replicate]
    omega

theorem count_take_un {L : List (Nat × Bool)} (hp : ∀ q ∈ L, 0 < q.1) {i m : Nat} (hm : m < L.length)
    (h1 : ustart L m ≤ i) (h2 : i < ustart L (m+1)) :
    ((un L).take i).count true = (L.take m).countP (·.2) := by
  induction L generalizing i m with
  | nil => simp at hm
  | cons q L ih =>
    have h0 := hp q (by simp)
    cases m with
    | zero =>
      simp [ustart] at h2
      simp only [un, List.flatMap_cons, List.take_zero, List.countP_nil, List.append_assoc]
      rw [List.take_append_of_le_length (by simp; omega)]
      simp [List.take_replicate, List.count_replicate]
    | succ m =>
      rw [ustart_cons] at h1 h2
      have := ih (fun q hq => hp q (by simp [hq])) (i := i - q.1) (m := m) (by simpa using hm) (by omega) (by omega)
      simp only [un, List.flatMap_cons, List.take_succ_cons, List.countP_cons] at this ⊢
      have hl : (List.replicate (q.1 - 1) false ++ [q.2]).length = q.1 := by simp; omega
      rw [List.take_append, hl, List.count_append, this, List.take_of_length_le (by omega)]
      cases h : q.2 <;> simp [List.count_replicate]
      omega

theorem selectFrom_append_left {α} {p : α → Bool} {l l' : List α} {k : Nat} (h : k < l.countP p) :
    selectFrom p (l ++ l') k = selectFrom p l k := by
  obtain ⟨i, hi⟩ := selectFrom_isSome h
  rw [hi]
  rw [selectFrom_eq_some] at hi ⊢
  obtain ⟨a, b, c⟩ := hi
  refine ⟨by simp; omega, by rw [List.getElem_append_left a]; exact b, by
    rw [List.take_append_of_le_length (by omega)]; exact c⟩

theorem selectFrom_append_right {α} {p : α → Bool} {l l' : List α} {k : Nat} :
    selectFrom p (l ++ l') (l.countP p + k) = (selectFrom p l' k).map (· + l.length) := by
  induction l with
  | nil => simp
  | cons a l ih =>
    rw [List.cons_append, selectFrom.eq_def]
    dsimp only
    by_cases h : p a = true
    · rw [if_pos h, List.countP_cons_of_pos h, show l.countP p + 1 + k = (l.countP p + k) + 1 by omega]
      simp only [ih, Option.map_map]
      congr 1
    · rw [if_neg h, List.countP_cons_of_neg h, ih]
      simp only [Option.map_map]
      congr 1

theorem select_un {L : List (Nat × Bool)} (hp : ∀ q ∈ L, 0 < q.1) {m : Nat} (hm : m < L.length)
    (hb : (L[m]).2 = true) :
    bvSelect (un L) ((L.take m).countP (·.2) + 1) = some (ustart L (m+1) - 1) := by
  rw [bvSelect, if_neg (by omega), Nat.add_sub_cancel]
  have hspl : L = L.take m ++ L[m] :: L.drop (m+1) := by simp
  have hun : un L = un (L.take m) ++ ((List.replicate ((L[m]).1 - 1) false ++ [(L[m]).2]) ++ un (L.drop (m+1))) := by
    conv => lhs; rw [hspl]
    simp only [un, List.flatMap_append, List.flatMap_cons]
  have hc : (L.take m).countP (·.2) = (un (L.take m)).countP id := by
    rw [← count_un, List.count_eq_countP]; congr 1; funext x; simp
  have hpos := hp L[m] (List.getElem_mem _)
  rw [hun, hc, show (un (L.take m)).countP id = (un (L.take m)).countP id + 0 from rfl, selectFrom_append_right]
  rw [hb]
  have : selectFrom id (List.replicate ((L[m]).1 - 1) false ++ [true] ++ un (L.drop (m+1))) 0
      = some ((L[m]).1 - 1) := by
    rw [selectFrom_eq_some]
    refine ⟨by simp, by simp, ?_⟩
    simp
  rw [this]
  have hl : (un (L.take m)).length = ustart L m := by
    rw [length_un (fun q hq => hp q (List.mem_of_mem_take hq))]
    rw [ustart, List.take_length, ustart]
  simp only [Option.map_some, hl]
  rw [ustart_succ hm]
  congr 1; omega

end Sri
