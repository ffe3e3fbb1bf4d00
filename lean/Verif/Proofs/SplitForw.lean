import Verif.Proofs.SubForward
/-! # Images of a block of positions: lists of runs against their concatenation -/
namespace Sri
set_option autoImplicit false
section
variable {T sa : List Nat} {Good : FRun → Prop} {n : Nat}

/-- the positions of a list of runs -/
def blocks (l : List FRun) : List Nat := l.flatMap (fun r => List.range' r.start (r.stop - r.start))

theorem Images.mono {Good' : FRun → Prop} {f : Nat → Nat} (h : ∀ r, Good r → Good' r) {l : List FRun} :
    ∀ {a b : Nat}, Images n f Good a b l → Images n f Good' a b l := by
  induction l with
  | nil => intro a b h; exact h
  | cons r l ih =>
    rintro a b ⟨h1, h2, h3, h4, h5, h6⟩
    exact ⟨h r h1, h2, h3, h4, h5, ih h6⟩

theorem Images.append {f : Nat → Nat} {l l' : List FRun} :
    ∀ {a b c : Nat}, Images n f Good a b l → Images n f Good b c l' → b ≤ c → Images n f Good a c (l ++ l') := by
  induction l with
  | nil => intro a b c h h' _; cases h; exact h'
  | cons r l ih =>
    rintro a b c ⟨h1, h2, h3, h4, h5, h6⟩ h' hbc
    exact ⟨h1, h2, h3, by omega, h5, ih h6 h' hbc⟩

theorem images_of_blocks {f : Nat → Nat} {l : List FRun} (hg : ∀ r ∈ l, Good r ∧ r.start < r.stop ∧ r.stop ≤ n) :
    ∀ {a b : Nat}, a ≤ b → (List.range' a (b - a)).map f = blocks l → Images n f Good a b l := by
  induction l with
  | nil =>
    intro a b hab h
    have := congrArg List.length h
    simp [blocks] at this
    change a = b
    omega
  | cons r l ih =>
    intro a b hab h
    obtain ⟨g1, g2, g3⟩ := hg r (by simp)
    rw [blocks, List.flatMap_cons] at h
    have hl := congrArg List.length h
    simp only [List.length_map, List.length_range', List.length_append] at hl
    have hle : a + (r.stop - r.start) ≤ b := by omega
    have hsplit : List.range' a (b - a) = List.range' a (r.stop - r.start) ++ List.range' (a + (r.stop - r.start)) (b - (a + (r.stop - r.start))) := by
      rw [List.range'_append_1]; congr 1; omega
    rw [hsplit, List.map_append] at h
    obtain ⟨e1, e2⟩ := List.append_inj h (by simp)
    refine ⟨g1, g2, g3, hle, ?_, ih (fun r hr => hg r (by simp [hr])) hle e2⟩
    intro j hj
    have := congrArg (fun l => l[j]?) e1
    simp only [List.getElem?_map, List.getElem?_range' hj, Option.map_some, Option.some_inj, Nat.one_mul] at this
    exact this

theorem mem_blocks {l : List FRun} {j : Nat} : j ∈ blocks l ↔ ∃ r ∈ l, r.start ≤ j ∧ j < r.stop := by
  simp only [blocks, List.mem_flatMap, List.mem_range'_1]
  constructor
  · rintro ⟨r, h1, h2, h3⟩; exact ⟨r, h1, h2, by omega⟩
  · rintro ⟨r, h1, h2, h3⟩; exact ⟨r, h1, h2, by omega⟩

theorem blocks_sorted {l : List FRun} (h : l.Pairwise (fun x y => x.stop ≤ y.start)) : (blocks l).Pairwise (· < ·) := by
  rw [blocks, List.pairwise_flatMap]
  refine ⟨fun r _ => List.pairwise_lt_range', h.imp ?_⟩
  intro r r' hrr x hx y hy
  rw [List.mem_range'_1] at hx hy
  omega

/-- two strictly increasing lists with the same members are equal -/
theorem strict_ext {l l' : List Nat} (h : l.Pairwise (· < ·)) (h' : l'.Pairwise (· < ·)) (hm : ∀ x, x ∈ l ↔ x ∈ l') : l = l' := by
  refine List.Perm.eq_of_pairwise (le := (· < ·)) (fun a b _ _ h1 h2 => by omega) h h' ?_
  exact (List.perm_ext_iff_of_nodup (h.imp (fun h => by omega)) (h'.imp (fun h => by omega))).2 hm

/-- the run data of a piece of a run -/
structure PieceOf (T sa : List Nat) (r : FRun) : Prop where
  pos : r.start < r.stop
  le : r.stop ≤ T.length
  inside : ∀ y, r.start < y → y < r.stop → ¬ HeadAt T sa y
  flag : r.isRunStart = false → ¬ HeadAt T sa r.start
  head : r.isRunStart = true → ∃ q, q < nrun T sa ∧ r.start = hd T sa q ∧ r.c = sy T sa q ∧ r.rank = symIdx T sa q

theorem inside_not_head {q y : Nat} (hq : q < nrun T sa) (h1 : hd T sa q < y) (h2 : y ≤ tl T sa q) : ¬ HeadAt T sa y := by
  intro hh
  obtain ⟨k, hk, rfl⟩ := headAt_iff.1 hh
  have := run_unique (i := hd T sa k) hk hq (Nat.le_refl _) (hd_le_tl hk) (by omega) h2
  subst this; omega

theorem piece_good {lo hi a b c : Nat} (hr : IsRun (bwtSeq T sa) a b c) (h1 : a < hi) (h2 : lo < b) (hlh : lo < hi) (hhi : hi ≤ T.length) :
    PieceOf T sa (SrCSA.createRun (runPiece (bwtSeq T sa) lo hi a b c)) := by
  obtain ⟨q, hq, rfl, rfl, rfl⟩ := run_of_isRun hr
  have hle := hd_le_tl (T := T) (sa := sa) hq
  refine ⟨?_, ?_, ?_, ?_, ?_⟩
  · change max lo (hd T sa q) < min hi (tl T sa q + 1); omega
  · change min hi (tl T sa q + 1) ≤ T.length; omega
  · intro y hy1 hy2
    change max lo (hd T sa q) < y at hy1
    change y < min hi (tl T sa q + 1) at hy2
    exact inside_not_head hq (by omega) (by omega)
  · intro hf
    change decide (lo ≤ hd T sa q) = false at hf
    have hf := of_decide_eq_false hf
    change ¬ HeadAt T sa (max lo (hd T sa q))
    exact inside_not_head hq (by omega) (by omega)
  · intro hf
    change decide (lo ≤ hd T sa q) = true at hf
    have hf := of_decide_eq_true hf
    refine ⟨q, hq, ?_, rfl, rfl⟩
    change max lo (hd T sa q) = hd T sa q
    omega

/-- a split in all the runs of a range lists the range -/
theorem sortedSplit_images {lo hi : Nat} (hlh : lo < hi) (hhi : hi ≤ T.length) {l : List PsiCoreRLE.Piece}
    (h : SortedSplit (bwtSeq T sa) lo hi l) : Images T.length id (PieceOf T sa) lo hi (l.map SrCSA.createRun) := by
  have hp : ∀ r ∈ l.map SrCSA.createRun, PieceOf T sa r := by
    intro r hr
    obtain ⟨x, hx, rfl⟩ := List.mem_map.1 hr
    obtain ⟨a, b, c, h1, h2, h3, rfl⟩ := (h.1 x).1 hx
    exact piece_good h1 h2 h3 hlh hhi
  refine images_of_blocks (fun r hr => ⟨hp r hr, (hp r hr).pos, (hp r hr).le⟩) (Nat.le_of_lt hlh) ?_
  rw [List.map_id]
  refine strict_ext List.pairwise_lt_range' (blocks_sorted ?_) ?_
  · rw [List.pairwise_map]
    refine h.2.imp_of_mem ?_
    intro x y hx hy hxy
    obtain ⟨a, b, c, h1, h2, h3, rfl⟩ := (h.1 x).1 hx
    obtain ⟨a', b', c', h1', h2', h3', rfl⟩ := (h.1 y).1 hy
    obtain ⟨q, hq, rfl, rfl, rfl⟩ := run_of_isRun h1
    obtain ⟨q', hq', rfl, rfl, rfl⟩ := run_of_isRun h1'
    change max lo (hd T sa q) < max lo (hd T sa q') at hxy
    change min hi (tl T sa q + 1) ≤ max lo (hd T sa q')
    by_contra hc
    have hle := hd_le_tl (T := T) (sa := sa) hq
    have hle' := hd_le_tl (T := T) (sa := sa) hq'
    have := run_unique (i := max lo (hd T sa q')) hq hq' (by omega) (by omega) (by omega) (by omega)
    subst this; omega
  · intro j
    rw [List.mem_range'_1, mem_blocks]
    constructor
    · intro hj
      obtain ⟨q, hq, f1, f2⟩ := run_find (T := T) (sa := sa) (i := j) (by omega)
      refine ⟨_, List.mem_map.2 ⟨_, (h.1 _).2 ⟨_, _, _, isRun_run hq, by omega, by omega, rfl⟩, rfl⟩, ?_, ?_⟩
      · change max lo (hd T sa q) ≤ j; omega
      · change j < min hi (tl T sa q + 1); omega
    · rintro ⟨r, hr, hj1, hj2⟩
      obtain ⟨x, hx, rfl⟩ := List.mem_map.1 hr
      obtain ⟨a, b, c, h1, h2, h3, rfl⟩ := (h.1 x).1 hx
      change max lo a ≤ j at hj1
      change j < min hi b at hj2
      omega

/-- the positions of one symbol, from psi -/
theorem splitOf_images (hT : IsText T) (hsa : IsSA T sa) {c p q u v : Nat} (hpq : p ≤ q) (hq : q < T.length)
    (hu : u < T.length) (hv : v < T.length) (hcu : bwtAt T sa u = c) (hcv : bwtAt T sa v = c) (hlu : lfAt T sa u = p)
    (hlv : lfAt T sa v = q) {l : List PsiCoreRLE.Piece} (h : SplitOf (bwtSeq T sa) u (v+1) c l) :
    Images T.length (psiAt T sa) (PieceOf T sa) p (q+1) (l.map SrCSA.createRun) := by
  have huv : u ≤ v := by
    by_contra hc
    have := (lf_lt_iff hT hsa hv hu (by rw [hcu, hcv])).2 (by omega)
    omega
  have hp : ∀ r ∈ l.map SrCSA.createRun, PieceOf T sa r := by
    intro r hr
    obtain ⟨x, hx, rfl⟩ := List.mem_map.1 hr
    obtain ⟨a, b, h1, h2, h3, rfl⟩ := (h.1 x).1 hx
    exact piece_good h1 h2 h3 (by omega) (by omega)
  have hsym : ∀ i, p ≤ i → i ≤ q → bwtAt T sa (psiAt T sa i) = c := by
    intro i h1 h2
    rw [bwtAt_eq hsa (psiAt_lt hsa (by omega)), lf_psi hsa (by omega)]
    have e1 := first_char_mono hsa h1 (by omega)
    have e2 := first_char_mono hsa h2 hq
    rw [← hlu, ← bwtAt_eq hsa hu, hcu] at e1
    rw [← hlv, ← bwtAt_eq hsa hv, hcv] at e2
    omega
  refine images_of_blocks (fun r hr => ⟨hp r hr, (hp r hr).pos, (hp r hr).le⟩) (by omega) ?_
  refine strict_ext ?_ (blocks_sorted ?_) ?_
  · rw [List.pairwise_map]
    refine List.Pairwise.imp_of_mem ?_ List.pairwise_lt_range'
    intro i j hi hj hij
    rw [List.mem_range'_1] at hi hj
    refine (lf_lt_iff hT hsa (psiAt_lt hsa (by omega)) (psiAt_lt hsa (by omega)) ?_).1 ?_
    · rw [hsym i (by omega) (by omega), hsym j (by omega) (by omega)]
    · rw [lf_psi hsa (by omega), lf_psi hsa (by omega)]; exact hij
  · rw [List.pairwise_map]
    refine h.2.imp ?_
    intro x y hxy
    exact Nat.le_of_lt hxy
  · intro j
    rw [List.mem_map, mem_blocks]
    constructor
    · rintro ⟨i, hi, rfl⟩
      rw [List.mem_range'_1] at hi
      have hs := hsym i (by omega) (by omega)
      have hlt := psiAt_lt hsa (show i < T.length by omega)
      have hlo : u ≤ psiAt T sa i := by
        by_contra hc
        have := (lf_lt_iff hT hsa hlt hu (by rw [hcu, hs])).2 (by omega)
        rw [lf_psi hsa (by omega)] at this; omega
      have hhi : psiAt T sa i ≤ v := by
        by_contra hc
        have := (lf_lt_iff hT hsa hv hlt (by rw [hcv, hs])).2 (by omega)
        rw [lf_psi hsa (by omega)] at this; omega
      obtain ⟨k, hk, f1, f2⟩ := run_find (T := T) (sa := sa) (i := psiAt T sa i) hlt
      have hsy : sy T sa k = c := by rw [← bwt_run hk f1 f2, hs]
      refine ⟨_, List.mem_map.2 ⟨_, (h.1 _).2 ⟨_, _, hsy ▸ isRun_run hk, by omega, by omega, rfl⟩, rfl⟩, ?_, ?_⟩
      · change max u (hd T sa k) ≤ psiAt T sa i; omega
      · change psiAt T sa i < min (v+1) (tl T sa k + 1); omega
    · rintro ⟨r, hr, hj1, hj2⟩
      obtain ⟨x, hx, rfl⟩ := List.mem_map.1 hr
      obtain ⟨a, b, h1, h2, h3, rfl⟩ := (h.1 x).1 hx
      obtain ⟨k, hk, rfl, rfl, hsy⟩ := run_of_isRun h1
      change max u (hd T sa k) ≤ j at hj1
      change j < min (v+1) (tl T sa k + 1) at hj2
      have hjc : bwtAt T sa j = c := by rw [bwt_run hk (by omega) (by omega), hsy]
      have hjl : j < T.length := by omega
      refine ⟨lfAt T sa j, ?_, psi_lf hsa hjl⟩
      rw [List.mem_range'_1]
      have e1 : p ≤ lfAt T sa j := by
        by_contra hc
        have := (lf_lt_iff hT hsa hjl hu (by rw [hcu, hjc])).1 (by omega)
        omega
      have e2 : lfAt T sa j ≤ q := by
        by_contra hc
        have := (lf_lt_iff hT hsa hv hjl (by rw [hcv, hjc])).1 (by omega)
        omega
      omega

theorem cumC_succ (T : List Nat) (c : Nat) : cumC T (c+1) = cumC T c + T.count c := by
  unfold cumC
  induction T with
  | nil => rfl
  | cons a T ih =>
    rw [List.countP_cons, List.countP_cons, List.count_cons, ih]
    by_cases h1 : a < c
    · simp [h1, show a < c + 1 by omega, show a ≠ c by omega]; omega
    · by_cases h2 : a = c
      · subst h2; simp; omega
      · simp [h1, h2, show ¬ a < c + 1 by omega]

/-- computeForwardRuns lists the images of a block of positions of one symbol -/
theorem forwardRuns_images {N : PsiNav} (h : N.OK T sa) {c f l : Nat} (hc : c < N.alphabet.sigma) (hf : 1 ≤ f) (hfl : f < l)
    (hl : cumC T c + (l - 1) ≤ cumC T (c+1)) :
    ∃ r, N.psi.computeForwardRuns c f l = some r ∧
      Images T.length (psiAt T sa) (PieceOf T sa) (cumC T c + (f - 1)) (cumC T c + (l - 1)) (r.map SrCSA.createRun) := by
  have hcount : (bwtSeq T sa).count c = cumC T (c+1) - cumC T c := by
    rw [(bwtSeq_perm h.text h.isSA).count_eq]
    have := cumC_succ T c
    omega
  obtain ⟨u, v, r, e1, e2, e3, e4⟩ := h.core.forwardRuns hc hf hfl (by omega)
  obtain ⟨u', f1, f2, f3⟩ := positions_inv (xs := bwtSeq T sa) (c := c) (k := f-1) (by omega)
  obtain ⟨v', g1, g2, g3⟩ := positions_inv (xs := bwtSeq T sa) (c := c) (k := l-2) (by omega)
  rw [e1, Option.some_inj] at f1
  rw [e2, Option.some_inj] at g1
  subst f1 g1
  have hu : u < T.length := by have := (List.getElem?_eq_some_iff.1 f2).1; rwa [bwtSeq_length] at this
  have hv : v < T.length := by have := (List.getElem?_eq_some_iff.1 g2).1; rwa [bwtSeq_length] at this
  rw [bwtSeq_get hu, Option.some_inj] at f2
  rw [bwtSeq_get hv, Option.some_inj] at g2
  rw [bwtSeq_take _ _ (Nat.le_of_lt hu)] at f3
  rw [bwtSeq_take _ _ (Nat.le_of_lt hv)] at g3
  have hlu := lf_formula h.text h.isSA hu
  have hlv := lf_formula h.text h.isSA hv
  rw [f2] at hlu
  rw [g2] at hlv
  have hlu' : lfAt T sa u = cumC T c + (f - 1) := by rw [hlu, ← f3]; rfl
  have hlv' : lfAt T sa v = cumC T c + (l - 2) := by rw [hlv, ← g3]; rfl
  refine ⟨r, e3, ?_⟩
  have := splitOf_images h.text h.isSA (p := cumC T c + (f-1)) (q := cumC T c + (l-2)) (by omega)
    (by rw [← hlv']; exact lfAt_lt h.isSA hv) hu hv f2 g2 hlu' hlv' e4
  rw [show cumC T c + (l - 2) + 1 = cumC T c + (l - 1) by omega] at this
  exact this

end
end Sri
