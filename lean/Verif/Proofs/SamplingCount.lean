import Verif.Proofs.SubForward
/-! # How many samples computeSampling keeps -/
namespace Sri
set_option autoImplicit false

/-- a kept sample beyond the first is either required, or two kept samples later the text position is more than `s` away -/
theorem samplingLoop_count (s M : Nat) (values req : List Nat) (rest : List Nat) :
    ∀ (k0 p : Nat) (L : List Nat), (∀ x ∈ p :: rest, x < values.length) →
      (k0 :: p :: rest).Pairwise (fun a b => values.getD a 0 < values.getD b 0) → (∀ x ∈ k0 :: p :: rest, values.getD x 0 ≤ M) →
      samplingLoop s values req (values.getD k0 0) p (values.getD p 0) rest = some L →
      (s + 1) * L.length ≤ (M - values.getD k0 0) + (M - values.getD p 0) + (s + 1) * (1 + (p :: rest).countP (fun x => decide (x ∈ req))) := by
  induction rest with
  | nil =>
    intro k0 p L _ _ _ h
    rw [samplingLoop, Option.some_inj] at h
    subst h
    rw [List.length_singleton, Nat.mul_add]; omega
  | cons c rest ih =>
    intro k0 p L hb hp hM h
    have hc : c < values.length := hb c (by simp)
    have hval : values[c]? = some (values.getD c 0) := by
      rw [List.getD_eq_getElem?_getD, List.getElem?_eq_getElem hc]; rfl
    have hp0 := hp
    rw [List.pairwise_cons, List.pairwise_cons, List.pairwise_cons] at hp
    obtain ⟨q1, q2, q3, q4⟩ := hp
    have g1 := q1 c (by simp)
    have g2 := q1 p (by simp)
    have g3 := q2 c (by simp)
    have m1 := hM c (by simp)
    have hcnt : (p :: c :: rest).countP (fun x => decide (x ∈ req)) =
        (c :: rest).countP (fun x => decide (x ∈ req)) + if p ∈ req then 1 else 0 := by
      rw [List.countP_cons]; simp only [decide_eq_true_eq]
    rw [samplingLoop] at h
    simp only [hval, Option.bind_eq_bind, Option.bind_some] at h
    rw [if_neg (by omega : ¬ values.getD c 0 < values.getD k0 0)] at h
    rw [hcnt]
    by_cases hcond : s < values.getD c 0 - values.getD k0 0 ∨ p ∈ req
    · rw [if_pos hcond] at h
      obtain ⟨l, hl, hL⟩ := Option.bind_eq_some_iff.1 h
      injection hL with hL
      subst hL
      have := ih p c l (fun x hx => hb x (by simp at hx ⊢; tauto)) (by rw [List.pairwise_cons] at hp0; exact hp0.2)
        (fun x hx => hM x (by simp at hx ⊢; tauto)) hl
      rw [List.length_cons, Nat.mul_add, Nat.mul_one]
      by_cases hr : p ∈ req
      · rw [if_pos hr, show 1 + (List.countP (fun x => decide (x ∈ req)) (c :: rest) + 1) = (1 + List.countP (fun x => decide (x ∈ req)) (c :: rest)) + 1 by omega, Nat.mul_add (s+1) _ 1]
        omega
      · simp only [hr, if_false, Nat.add_zero]
        rcases hcond with hcond | hcond
        · omega
        · exact absurd hcond hr
    · rw [if_neg hcond] at h
      have := ih k0 c L (fun x hx => hb x (by simp at hx ⊢; tauto))
        (by
          rw [List.pairwise_cons, List.pairwise_cons]
          exact ⟨fun x hx => q1 x (by simp at hx ⊢; tauto), q3, q4⟩)
        (fun x hx => hM x (by simp at hx ⊢; tauto)) h
      rw [not_or] at hcond
      simp only [hcond.2, if_false, Nat.add_zero]
      omega

theorem countP_le_of_nodup {l req : List Nat} (hd : l.Nodup) : l.countP (fun x => decide (x ∈ req)) ≤ req.length := by
  rw [List.countP_eq_length_filter]
  refine (List.subperm_of_subset (hd.filter _) ?_).length_le
  intro x hx
  simpa using (List.mem_filter.1 hx).2

/-- computeSampling over samples sorted by increasing text position -/
theorem computeSampling_count (s M : Nat) (idxs values req K : List Nat) (hb : ∀ x ∈ idxs, x < values.length)
    (hp : idxs.Pairwise (fun a b => values.getD a 0 < values.getD b 0)) (hM : ∀ x ∈ idxs, values.getD x 0 ≤ M)
    (h : computeSampling s idxs values req = some K) : (s + 1) * K.length ≤ 2 * M + (s + 1) * (2 + req.length) := by
  have hval : ∀ x ∈ idxs, values[x]? = some (values.getD x 0) := by
    intro x hx
    rw [List.getD_eq_getElem?_getD, List.getElem?_eq_getElem (hb x hx)]; rfl
  match idxs, hb, hp, hM, hval, h with
  | [], _, _, _, _, h =>
    rw [computeSampling, Option.some_inj] at h
    subst h; simp
  | [f], _, _, _, hval, h =>
    rw [computeSampling, hval f (by simp)] at h
    injection h with h
    subst h
    rw [List.length_singleton, Nat.mul_add]; omega
  | f :: p :: rest, hb, hp, hM, hval, h =>
    simp only [computeSampling, hval f (by simp), hval p (by simp), Option.bind_eq_bind, Option.bind_some] at h
    obtain ⟨l, hl, hK⟩ := Option.bind_eq_some_iff.1 h
    injection hK with hK
    subst hK
    have h1 := samplingLoop_count s M values req rest f p l (fun x hx => hb x (by simp at hx ⊢; tauto)) hp hM hl
    have hnd : (p :: rest).Nodup := (List.pairwise_cons.1 hp).2.imp (fun h e => by rw [e] at h; omega)
    have h2 := Nat.mul_le_mul_left (s+1) (countP_le_of_nodup (req := req) hnd)
    rw [Nat.mul_add] at h1 ⊢
    rw [List.length_cons, Nat.mul_add]
    omega

/-- computeSampling over samples sorted by decreasing text position -/
theorem computeSampling_count_desc (s M : Nat) (idxs values req K : List Nat) (hb : ∀ x ∈ idxs, x < values.length)
    (hp : idxs.Pairwise (fun a b => values.getD b 0 < values.getD a 0)) (hM : ∀ v ∈ values, v ≤ M)
    (h : computeSampling s idxs values req = some K) : (s + 1) * K.length ≤ 2 * M + (s + 1) * (2 + req.length) := by
  have hg : ∀ k, k < values.length → (values.map (M - ·)).getD k 0 = M - values.getD k 0 ∧ values.getD k 0 ≤ M := by
    intro k hk
    rw [List.getD_eq_getElem?_getD, List.getD_eq_getElem?_getD, List.getElem?_map, List.getElem?_eq_getElem hk]
    exact ⟨rfl, hM _ (List.getElem_mem hk)⟩
  rw [computeSampling_reflect s M idxs values req hM] at h
  refine computeSampling_count s M idxs _ req K (by simpa using hb) ?_ ?_ h
  · refine hp.imp_of_mem ?_
    intro a b ha hb' hab
    have h1 := hg a (hb a ha)
    have h2 := hg b (hb b hb')
    rw [h1.1, h2.1]; omega
  · intro x hx
    rw [(hg x (hb x hx)).1]; omega

/-- the sub-sampling of the samples of all the runs, in increasing order of text positions -/
theorem subsampleIdx_count {s M : Nat} {samples links idx : List Nat} (hd : samples.Nodup) (hM : ∀ v ∈ samples, v ≤ M)
    (h : SrIndex.subsampleIdx s samples (sortIndices samples) links = some idx) : (s + 1) * idx.length ≤ 2 * M + (s + 1) * 4 := by
  unfold SrIndex.subsampleIdx computeSortedSampling at h
  obtain ⟨a, -, h⟩ := Option.bind_eq_some_iff.1 h
  obtain ⟨l, -, h⟩ := Option.bind_eq_some_iff.1 h
  obtain ⟨b, -, h⟩ := Option.bind_eq_some_iff.1 h
  obtain ⟨K, hK, h⟩ := Option.bind_eq_some_iff.1 h
  injection h with h
  subst h
  rw [(sortBy_perm _ _).length_eq]
  refine computeSampling_count s M _ samples [a, b] K (fun x hx => ?_) (sortIndices_strict hd) (fun x hx => ?_) hK
  · exact List.mem_range.1 ((sortIndices_perm _).mem_iff.1 hx)
  · have := List.mem_range.1 ((sortIndices_perm _).mem_iff.1 hx)
    rw [List.getD_eq_getElem?_getD, List.getElem?_eq_getElem this]
    exact hM _ (List.getElem_mem this)

/-- the same in decreasing order -/
theorem subsampleIdx_count_desc {s M : Nat} {samples links idx : List Nat} (hd : samples.Nodup) (hM : ∀ v ∈ samples, v ≤ M)
    (h : SrIndex.subsampleIdx s samples (sortIndices samples).reverse links = some idx) : (s + 1) * idx.length ≤ 2 * M + (s + 1) * 4 := by
  unfold SrIndex.subsampleIdx computeSortedSampling at h
  obtain ⟨a, -, h⟩ := Option.bind_eq_some_iff.1 h
  obtain ⟨l, -, h⟩ := Option.bind_eq_some_iff.1 h
  obtain ⟨b, -, h⟩ := Option.bind_eq_some_iff.1 h
  obtain ⟨K, hK, h⟩ := Option.bind_eq_some_iff.1 h
  injection h with h
  subst h
  rw [(sortBy_perm _ _).length_eq]
  refine computeSampling_count_desc s M _ samples [a, b] K (fun x hx => ?_) (List.pairwise_reverse.2 (sortIndices_strict hd)) hM hK
  exact List.mem_range.1 ((sortIndices_perm _).mem_iff.1 (List.mem_reverse.1 hx))

/-- `1`s of a bit vector built from distinct positions -/
theorem count_true_mem {n : Nat} {vals : List Nat} (hd : vals.Nodup) (h : ∀ v ∈ vals, v < n) :
    ((List.range n).map (fun i => decide (i ∈ vals))).count true = vals.length := by
  rw [List.count_eq_countP, List.countP_map, List.countP_eq_length_filter]
  refine List.Perm.length_eq ((List.perm_ext_iff_of_nodup (List.nodup_range.filter _) hd).2 ?_)
  intro x
  rw [List.mem_filter, List.mem_range]
  constructor
  · rintro ⟨-, h⟩; simpa using h
  · intro hx; exact ⟨h x hx, by simpa using hx⟩

/-- `0`s of a bit vector that excludes distinct positions -/
theorem count_false_mem {n : Nat} {vals : List Nat} (hd : vals.Nodup) (h : ∀ v ∈ vals, v < n) :
    ((List.range n).map (fun i => if i ∈ vals then false else true)).count false = vals.length := by
  rw [← count_true_mem hd h, List.count_eq_countP, List.count_eq_countP, List.countP_map, List.countP_map]
  refine List.countP_congr ?_
  intro x _
  by_cases hx : x ∈ vals <;> simp [hx]

end Sri
