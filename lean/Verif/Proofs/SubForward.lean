import Verif.Proofs.ForwRangeV
import Verif.Proofs.SrIndex
import Verif.Proofs.RCSA
/-! # Sub-sampling for phi forward: kept heads, kept marks -/
namespace Sri
set_option autoImplicit false
section
variable {T sa : List Nat}

/-- What subsampling guarantees about the kept run heads: a dropped one lies strictly between two kept ones whose text positions are at
    most `s` apart. -/
def HeadSampling (T sa : List Nat) (s : Nat) (kept : Nat → Prop) : Prop :=
  (∀ y, kept y → HeadAt T sa y) ∧
  ∀ y, HeadAt T sa y → ¬ kept y → ∃ a b, kept a ∧ kept b ∧ pv T sa a < pv T sa y ∧ pv T sa y < pv T sa b ∧
    pv T sa b - pv T sa a ≤ s

/-- a position that is not a tail is followed by one that is not a head -/
theorem not_head_succ {y : Nat} (h : ¬ TailAt T sa y) (hy : y + 1 < T.length) : ¬ HeadAt T sa (y + 1) := by
  intro hh
  apply h
  refine ⟨by omega, Or.inr ?_⟩
  rcases hh.2 with h0 | h0
  · omega
  · rwa [Nat.add_sub_cancel] at h0

/-- **subsampled phi forward**: if the walk from the right neighbour meets no kept head during its first `s` steps (itself included), then
    the head whose sample phi needs is kept. -/
theorem sub_phi_forw (hT : IsText T) (hsa : IsSA T sa) {s : Nat} {kept : Nat → Prop} (hk : HeadSampling T sa s kept)
    {i : Nat} (h : i + 1 < T.length) {d : Nat} (hno : ∀ e, e < d → ¬ TailAt T sa (psiIt T sa (e+1) i))
    (hh : HeadAt T sa (psiIt T sa (d+1) (i+1))) (hs : ∀ e, e < s → ¬ kept (psiIt T sa e (i+1))) :
    kept (psiIt T sa (d+1) (i+1)) := by
  have hn := hT.pos
  by_contra hnk
  obtain ⟨a, b, ha, hb, hay, hyb, hab⟩ := hk.2 _ hh hnk
  have hat := hk.1 a ha
  have hbt := hk.1 b hb
  have hv := saAt_lt hsa h
  -- the walk does not wrap around
  have hwrap : ∀ e, e ≤ d → saAt sa (i+1) + e < T.length := by
    intro e
    induction e with
    | zero => intro _; omega
    | succ e ih =>
      intro he
      have h1 := ih (by omega)
      by_contra hc
      have h2 := sa_psiIt hsa h e h1
      have h3 := walk_forw hT hsa h e (fun e' he' => hno e' (by omega))
      have h4 : psiIt T sa e (i+1) = 0 := saAt_inj hsa (psiIt_lt hsa e h) hn (by rw [h2, sa_zero hT hsa]; omega)
      omega
  have key : ∀ e, saAt sa (i+1) + e < T.length → pv T sa (psiIt T sa (e+1) (i+1)) = saAt sa (i+1) + e := by
    intro e he
    rw [psiIt_succ, pv_psi hsa (psiIt_lt hsa e h), sa_psiIt hsa h e he]
  have hy := key d (hwrap d (Nat.le_refl _))
  have hpb := pv_lt (T := T) (sa := sa) (i := b) hn
  -- the lower kept head is not met by the walk
  have halt : pv T sa a < saAt sa (i+1) := by
    by_contra hc
    obtain ⟨e, he⟩ : ∃ e, pv T sa a = saAt sa (i+1) + e := ⟨pv T sa a - saAt sa (i+1), by omega⟩
    have hae : a = psiIt T sa (e+1) (i+1) := pv_inj hsa hat.1 (psiIt_lt hsa _ h) (by rw [key e (by omega)]; exact he)
    have hw := walk_forw hT hsa h (e+1) (fun e' he' => hno e' (by omega))
    rw [hw] at hae
    have := not_head_succ (hno e (by omega)) (by rw [← hae]; exact hat.1)
    exact this (hae ▸ hat)
  have hne : pv T sa a ≠ saAt sa (i+1) - 1 := by
    intro hc
    have : a = i + 1 := pv_inj hsa hat.1 h (by rw [pv_of_pos hsa h (by omega)]; exact hc)
    exact hs 0 (by omega) (by rw [psiIt_zero, ← this]; exact ha)
  -- hence the upper one is among the first `s` steps
  obtain ⟨e, he⟩ : ∃ e, pv T sa b = saAt sa (i+1) + e := ⟨pv T sa b - saAt sa (i+1), by omega⟩
  have hbe : b = psiIt T sa (e+1) (i+1) := pv_inj hsa hbt.1 (psiIt_lt hsa _ h) (by rw [key e (by omega)]; exact he)
  exact hs (e+1) (by omega) (hbe ▸ hb)

/-- the mark of a head: the text position before it in LF order -/
def mkOf (T sa : List Nat) (q : Nat) : Nat := saAt sa ((lfAt T sa (hd T sa q) + T.length - 1) % T.length)

theorem pred_mod_inj {n a b : Nat} (ha : a < n) (hb : b < n) (h : (a + n - 1) % n = (b + n - 1) % n) : a = b := by
  have h1 : ∀ x, x < n → ((x + n - 1) % n + 1) % n = x := by
    intro x hx
    rw [Nat.mod_add_mod, show x + n - 1 + 1 = x + n by omega, Nat.add_mod_right, Nat.mod_eq_of_lt hx]
  rw [← h1 a ha, h, h1 b hb]

theorem succ_pred_mod {n x : Nat} (hx : x < n) : ((x + n - 1) % n + 1) % n = x := by
  rw [Nat.mod_add_mod, show x + n - 1 + 1 = x + n by omega, Nat.add_mod_right, Nat.mod_eq_of_lt hx]

theorem pred_succ_mod {n x : Nat} (hx : x < n) : ((x + 1) % n + n - 1) % n = x := by
  rw [show (x + 1) % n + n - 1 = (x + 1) % n + (n - 1) by omega, Nat.mod_add_mod, show x + 1 + (n - 1) = x + n by omega,
    Nat.add_mod_right, Nat.mod_eq_of_lt hx]

/-- what precedes a head in LF order is a tail -/
theorem tail_before_head (hT : IsText T) (hsa : IsSA T sa) {y : Nat} (hy : HeadAt T sa y) :
    TailAt T sa (psiAt T sa ((lfAt T sa y + T.length - 1) % T.length)) := by
  have hn := hT.pos
  have hlt := lfAt_lt hsa hy.1
  by_cases h0 : lfAt T sa y = 0
  · rw [h0, Nat.zero_add, Nat.mod_eq_of_lt (by omega)]; exact tail_psi_last hT hsa
  · rw [show lfAt T sa y + T.length - 1 = (lfAt T sa y - 1) + T.length by omega, Nat.add_mod_right, Nat.mod_eq_of_lt (by omega)]
    have h1 := psiAt_lt hsa (show lfAt T sa y - 1 < T.length by omega)
    refine ⟨h1, ?_⟩
    by_contra hc
    push Not at hc
    have h2 : psiAt T sa (lfAt T sa y - 1) + 1 < T.length := by omega
    have h3 := (lf_adj hT hsa h2 hc.2).1
    rw [lf_psi hsa (by omega), Nat.sub_add_cancel (by omega)] at h3
    have h4 := lf_inj hsa h2 hy.1 h3
    rcases hy.2 with h5 | h5
    · omega
    · apply h5
      rw [← h4, Nat.add_sub_cancel]; exact hc.2

theorem mkOf_tailMark (hT : IsText T) (hsa : IsSA T sa) {q : Nat} (hq : q < nrun T sa) : TailMark T sa (mkOf T sa q) :=
  ⟨_, tail_before_head hT hsa (headAt_hd hq), pv_psi hsa (Nat.mod_lt _ hT.pos)⟩

theorem mkOf_inj (hsa : IsSA T sa) {p q : Nat} (hp : p < nrun T sa) (hq : q < nrun T sa) (h : mkOf T sa p = mkOf T sa q) : p = q := by
  have h1 := lfAt_lt hsa (hd_lt hp)
  have h2 := lfAt_lt hsa (hd_lt hq)
  exact hd_inj hp hq (lf_inj hsa (hd_lt hp) (hd_lt hq)
    (pred_mod_inj h1 h2 (saAt_inj hsa (Nat.mod_lt _ (by omega)) (Nat.mod_lt _ (by omega)) h)))

theorem mkOf_lt (hT : IsText T) (hsa : IsSA T sa) {q : Nat} (_hq : q < nrun T sa) : mkOf T sa q < T.length :=
  saAt_lt hsa (Nat.mod_lt _ hT.pos)

/-- the mark of the head that follows a tail is the text position of the tail -/
theorem mkOf_after (hsa : IsSA T sa) {t q : Nat} (ht : t < T.length)
    (h : hd T sa q = psiAt T sa ((lfAt T sa t + 1) % T.length)) : mkOf T sa q = pv T sa t := by
  have hl := lfAt_lt hsa ht
  rw [mkOf, h, lf_psi hsa (Nat.mod_lt _ (by omega)), pred_succ_mod hl, pv_eq hsa ht]

/-- and the other way round -/
theorem after_mkOf (hsa : IsSA T sa) {t q : Nat} (ht : t < T.length) (hq : q < nrun T sa) (h : mkOf T sa q = pv T sa t) :
    hd T sa q = psiAt T sa ((lfAt T sa t + 1) % T.length) := by
  have hl := lfAt_lt hsa (hd_lt hq)
  have hlt := lfAt_lt hsa ht
  rw [mkOf, pv_eq hsa ht] at h
  have := saAt_inj hsa (Nat.mod_lt _ (by omega)) hlt h
  rw [← this, succ_pred_mod hl, psi_lf hsa (hd_lt hq)]

/-- the kept heads -/
def keptHd (T sa K : List Nat) (y : Nat) : Prop := ∃ q ∈ K, hd T sa q = y

/-! ## computeSampling over indices sorted from the greatest value to the smallest -/

theorem samplingLoop_reflect (s M : Nat) (values req : List Nat) (hM : ∀ v ∈ values, v ≤ M) (rest : List Nat) :
    ∀ (last p prev : Nat), last ≤ M → prev ≤ M →
      samplingLoop s values req last p prev rest = samplingLoop s (values.map (M - ·)) req (M - last) p (M - prev) rest := by
  induction rest with
  | nil => intro last p prev _ _; rfl
  | cons c rest ih =>
    intro last p prev h1 h2
    rw [samplingLoop, samplingLoop, List.getElem?_map]
    cases hc : values[c]? with
    | none => rfl
    | some v =>
      have hv := hM v (List.mem_of_getElem? hc)
      simp only [Option.map_some, Option.bind_eq_bind, Option.bind_some]
      have hd : (if v < last then last - v else v - last) = (if M - v < M - last then M - last - (M - v) else M - v - (M - last)) := by
        split <;> split <;> omega
      rw [← hd, ih prev c v h2 hv, ih last c v h1 hv]

theorem computeSampling_reflect (s M : Nat) (idxs values req : List Nat) (hM : ∀ v ∈ values, v ≤ M) :
    computeSampling s idxs values req = computeSampling s idxs (values.map (M - ·)) req := by
  unfold computeSampling
  cases idxs with
  | nil => rfl
  | cons f rest =>
    dsimp only
    rw [List.getElem?_map]
    cases hf : values[f]? with
    | none => rfl
    | some v =>
      have hv := hM v (List.mem_of_getElem? hf)
      simp only [Option.map_some, Option.bind_eq_bind, Option.bind_some]
      cases rest with
      | nil => rfl
      | cons p rest =>
        dsimp only
        rw [List.getElem?_map]
        cases hp : values[p]? with
        | none => rfl
        | some w =>
          have hw := hM w (List.mem_of_getElem? hp)
          simp only [Option.map_some, Option.bind_some]
          rw [samplingLoop_reflect s M values req hM rest v p w hv hw]

theorem exists_upper (l : List Nat) : ∃ M, ∀ v ∈ l, v ≤ M := by
  induction l with
  | nil => exact ⟨0, by simp⟩
  | cons a l ih =>
    obtain ⟨M, hM⟩ := ih
    refine ⟨a + M, ?_⟩
    intro v hv
    rcases List.mem_cons.1 hv with rfl | h
    · omega
    · have := hM v h; omega

theorem computeSampling_desc (s : Nat) (idxs values req : List Nat) (hb : ∀ x ∈ idxs, x < values.length)
    (hp : idxs.Pairwise (fun a b => values.getD b 0 < values.getD a 0)) :
    ∃ K, computeSampling s idxs values req = some K ∧ List.Sublist K idxs ∧ (∀ x ∈ idxs, x ∈ req → x ∈ K) ∧
      (∀ d ∈ idxs, d ∉ K → ∃ a b, a ∈ K ∧ b ∈ K ∧ values.getD a 0 < values.getD d 0 ∧ values.getD d 0 < values.getD b 0 ∧
        values.getD b 0 - values.getD a 0 ≤ s) := by
  obtain ⟨M, hM⟩ : ∃ M, ∀ v ∈ values, v ≤ M := exists_upper values
  have hg : ∀ x, x < values.length → (values.map (M - ·)).getD x 0 = M - values.getD x 0 ∧ values.getD x 0 ≤ M := by
    intro x hx
    rw [List.getD_eq_getElem?_getD, List.getD_eq_getElem?_getD, List.getElem?_map, List.getElem?_eq_getElem hx]
    exact ⟨rfl, hM _ (List.getElem_mem hx)⟩
  obtain ⟨K, e1, e2, -, -, e3, e4⟩ := computeSampling_spec s idxs (values.map (M - ·)) req (fun x hx => by rw [List.length_map]; exact hb x hx)
    (hp.imp_of_mem (fun {a b} ha hb' hlt => by
      have h1 := hg a (hb a ha)
      have h2 := hg b (hb b hb')
      rw [h1.1, h2.1]; omega))
  refine ⟨K, by rw [computeSampling_reflect s M idxs values req hM, e1], e2, e3, ?_⟩
  intro d hd hnd
  obtain ⟨A, a, b, B, f1, f2, f3, f4⟩ := e4 d hd hnd
  have ha : a ∈ K := by rw [f1]; simp
  have hb' : b ∈ K := by rw [f1]; simp
  have h1 := hg a (hb a (e2.subset ha))
  have h2 := hg b (hb b (e2.subset hb'))
  have h3 := hg d (hb d hd)
  simp only [h1.1, h2.1, h3.1] at f2 f3 f4
  exact ⟨b, a, hb', ha, by omega, by omega, by omega⟩

/-! ## The kept samples -/

/-- text positions of the heads, and of the tails, of the runs in the order `ord` -/
def hdPos (T sa ord : List Nat) : List Nat := ord.map (fun q => pv T sa (hd T sa q))
def tlPos (T sa ord : List Nat) : List Nat := ord.map (fun q => pv T sa (tl T sa q))

/-- the kept runs, given their indices in the order -/
def runsAt (ord idx : List Nat) : List Nat := idx.map (fun k => ord.getD k 0)

theorem zero_run_hd (hT : IsText T) (hsa : IsSA T sa) : ∃ q, q < nrun T sa ∧ saAt sa (hd T sa q) = 0 := by
  have hn := hT.pos
  have h0 : saAt sa (psiAt T sa 0) = 0 := by
    rw [saAt_psiAt hsa hn, sa_zero hT hsa, Nat.sub_add_cancel (by omega), Nat.mod_self]
  obtain ⟨q, hq, he⟩ := headAt_iff.1 (zero_headAt hT hsa (psiAt_lt hsa hn) h0).1
  exact ⟨q, hq, by rw [he]; exact h0⟩

theorem subsample_forw (hT : IsText T) (hsa : IsSA T sa) (s : Nat) {ord : List Nat} {lnk : Nat → Nat}
    (hperm : ord.Perm (List.range (nrun T sa)))
    (hlink : ∀ k q, ord[k]? = some q → ∃ q', ord[lnk k]? = some q' ∧ hd T sa q' = psiAt T sa ((lfAt T sa (tl T sa q) + 1) % T.length)) :
    ∃ idx, SrIndex.subsampleIdx s (hdPos T sa ord) (sortIndices (hdPos T sa ord)).reverse ((sortIndices (tlPos T sa ord)).map lnk) = some idx ∧
      idx.Pairwise (· < ·) ∧ (∀ k ∈ idx, k < ord.length) ∧ HeadSampling T sa s (keptHd T sa (runsAt ord idx)) ∧
      (∃ q ∈ runsAt ord idx, saAt sa (hd T sa q) = 0) ∧
      (∀ p, TailMark T sa p → ∃ x, x ∈ (runsAt ord idx).map (mkOf T sa) ∧ x ≤ p) ∧
      (∀ p, TailMark T sa p → ∃ x, x ∈ (runsAt ord idx).map (mkOf T sa) ∧ p ≤ x) := by
  have hn := hT.pos
  have hr := nrun_pos (sa := sa) hn
  have hmo : ∀ q, q ∈ ord ↔ q < nrun T sa := fun q => by rw [hperm.mem_iff, List.mem_range]
  have hol : ord.length = nrun T sa := by rw [hperm.length_eq, List.length_range]
  have hnd : ord.Nodup := hperm.nodup_iff.2 List.nodup_range
  have hgd : ∀ k, k < ord.length → ord[k]? = some (ord.getD k 0) := fun k hk => by
    rw [List.getD_eq_getElem?_getD, List.getElem?_eq_getElem hk]; rfl
  have hgl : ∀ k, k < ord.length → ord.getD k 0 < nrun T sa := fun k hk => (hmo _).1 (List.mem_of_getElem? (hgd k hk))
  have hgi : ∀ q, q < nrun T sa → ∃ k, k < ord.length ∧ ord.getD k 0 = q := by
    intro q hq
    obtain ⟨k, hk, rfl⟩ := List.getElem_of_mem ((hmo q).2 hq)
    refine ⟨k, hk, ?_⟩
    have := hgd k hk
    rw [List.getElem?_eq_getElem hk] at this; exact (Option.some_inj.1 this).symm
  have hhv : ∀ k, k < ord.length → (hdPos T sa ord).getD k 0 = pv T sa (hd T sa (ord.getD k 0)) := fun k hk => by
    rw [List.getD_eq_getElem?_getD, hdPos, List.getElem?_map, hgd k hk]; rfl
  have htv : ∀ k, k < ord.length → (tlPos T sa ord).getD k 0 = pv T sa (tl T sa (ord.getD k 0)) := fun k hk => by
    rw [List.getD_eq_getElem?_getD, tlPos, List.getElem?_map, hgd k hk]; rfl
  have hhnd : (hdPos T sa ord).Nodup := by
    refine List.Nodup.map_on ?_ hnd
    intro a ha b hb he
    have ha := (hmo a).1 ha
    have hb := (hmo b).1 hb
    exact hd_inj ha hb (pv_inj hsa (hd_lt ha) (hd_lt hb) he)
  have htnd : (tlPos T sa ord).Nodup := by
    refine List.Nodup.map_on ?_ hnd
    intro a ha b hb he
    have ha := (hmo a).1 ha
    have hb := (hmo b).1 hb
    exact tl_inj ha hb (pv_inj hsa (tl_lt ha) (tl_lt hb) he)
  have hhl : (hdPos T sa ord).length = ord.length := by simp [hdPos]
  have htl : (tlPos T sa ord).length = ord.length := by simp [tlPos]
  -- the marks in order
  have hstr := sortIndices_strict htnd
  have hpS := sortIndices_perm (tlPos T sa ord)
  have hsl : (sortIndices (tlPos T sa ord)).length = ord.length := by rw [sortIndices_length, htl]
  rw [htl] at hpS
  set S := sortIndices (tlPos T sa ord) with hS
  have hSlt : ∀ j (hj : j < S.length), S[j] < ord.length := fun j hj => List.mem_range.1 (hpS.mem_iff.1 (List.getElem_mem hj))
  have hmono : ∀ i j (hi : i < S.length) (hj : j < S.length), i ≤ j →
      pv T sa (tl T sa (ord.getD S[i] 0)) ≤ pv T sa (tl T sa (ord.getD S[j] 0)) := by
    intro i j hi hj hij
    rcases Nat.lt_or_eq_of_le hij with h | rfl
    · have := List.pairwise_iff_getElem.1 hstr i j hi hj h
      rw [htv _ (hSlt i hi), htv _ (hSlt j hj)] at this
      omega
    · exact Nat.le_refl _
  have hidx : ∀ p, TailMark T sa p → ∃ j, ∃ hj : j < S.length, pv T sa (tl T sa (ord.getD S[j] 0)) = p := by
    rintro p ⟨t, ht, rfl⟩
    obtain ⟨q, hq, rfl⟩ := tailAt_iff.1 ht
    obtain ⟨k, hk, rfl⟩ := hgi q hq
    obtain ⟨j, hj, rfl⟩ := List.getElem_of_mem (hpS.mem_iff.2 (List.mem_range.2 hk))
    exact ⟨j, hj, rfl⟩
  -- the sampling
  have hmemI : ∀ k, k ∈ (sortIndices (hdPos T sa ord)).reverse ↔ k < ord.length := fun k => by
    rw [List.mem_reverse, (sortIndices_perm _).mem_iff, List.mem_range, hhl]
  obtain ⟨K', e1, e2, e3, e4⟩ := computeSampling_desc s (sortIndices (hdPos T sa ord)).reverse (hdPos T sa ord)
    [lnk S[0], lnk S[S.length - 1]] (fun x hx => by rw [hhl]; exact (hmemI x).1 hx)
    (List.pairwise_reverse.2 (sortIndices_strict hhnd))
  have hK'lt : ∀ k ∈ K', k < ord.length := fun k hk => (hmemI k).1 (e2.subset hk)
  have hK'nd : K'.Nodup := e2.nodup (List.nodup_reverse.2 ((sortIndices_perm _).nodup_iff.2 List.nodup_range))
  have hmem : ∀ k, k ∈ sortBy (fun i => i) K' ↔ k ∈ K' := fun k => (sortBy_perm _ _).mem_iff
  have hrm : ∀ k, k ∈ K' → ord.getD k 0 ∈ runsAt ord (sortBy (fun i => i) K') := fun k hk =>
    List.mem_map.2 ⟨k, (hmem k).2 hk, rfl⟩
  have hlk : ∀ j (hj : j < S.length), lnk S[j] < ord.length ∧
      mkOf T sa (ord.getD (lnk S[j]) 0) = pv T sa (tl T sa (ord.getD S[j] 0)) := by
    intro j hj
    obtain ⟨q', g1, g2⟩ := hlink S[j] _ (hgd _ (hSlt j hj))
    have hl := (List.getElem?_eq_some_iff.1 g1).1
    refine ⟨hl, ?_⟩
    rw [hgd _ hl, Option.some_inj] at g1
    rw [g1]
    exact mkOf_after hsa (tl_lt (hgl _ (hSlt j hj))) g2
  have hreq : ∀ j (hj : j < S.length), (j = 0 ∨ j = S.length - 1) →
      pv T sa (tl T sa (ord.getD S[j] 0)) ∈ (runsAt ord (sortBy (fun i => i) K')).map (mkOf T sa) := by
    intro j hj hj2
    obtain ⟨h1, h2⟩ := hlk j hj
    refine List.mem_map.2 ⟨_, hrm (lnk S[j]) (e3 _ ((hmemI _).2 h1) ?_), h2⟩
    rcases hj2 with rfl | rfl <;> simp
  refine ⟨sortBy (fun i => i) K', ?_, sortBy_strict (by simpa using hK'nd), fun k hk => hK'lt k ((hmem k).1 hk), ?_, ?_, ?_, ?_⟩
  · unfold SrIndex.subsampleIdx computeSortedSampling
    rw [show (S.map lnk)[0]? = some (lnk S[0]) by rw [List.getElem?_map, List.getElem?_eq_getElem (by omega)]; rfl]
    simp only [Option.bind_eq_bind, Option.bind_some, List.length_map, csub, show 1 ≤ S.length by omega, if_true]
    rw [show (S.map lnk)[S.length - 1]? = some (lnk S[S.length - 1]) by
      rw [List.getElem?_map, List.getElem?_eq_getElem (by omega)]; rfl]
    rw [Option.bind_some, e1]; rfl
  · refine ⟨?_, ?_⟩
    · rintro y ⟨q, hq, rfl⟩
      obtain ⟨k, hk, rfl⟩ := List.mem_map.1 hq
      exact headAt_hd (hgl k (hK'lt k ((hmem k).1 hk)))
    · intro y hy hno
      obtain ⟨q, hq, rfl⟩ := headAt_iff.1 hy
      obtain ⟨k, hk, rfl⟩ := hgi q hq
      have hkK : k ∉ K' := fun hc => hno ⟨_, hrm k hc, rfl⟩
      obtain ⟨a, b, ha, hb, f2, f3, f4⟩ := e4 k ((hmemI k).2 hk) hkK
      rw [hhv a (hK'lt a ha)] at f2 f4
      rw [hhv b (hK'lt b hb)] at f3 f4
      rw [hhv k hk] at f2 f3
      exact ⟨_, _, ⟨_, hrm a ha, rfl⟩, ⟨_, hrm b hb, rfl⟩, f2, f3, f4⟩
  · obtain ⟨q, hq, z1⟩ := zero_run_hd hT hsa
    obtain ⟨k, hk, rfl⟩ := hgi q hq
    refine ⟨_, hrm k ?_, z1⟩
    by_contra hc
    obtain ⟨a, b, ha, hb, f2, f3, f4⟩ := e4 k ((hmemI k).2 hk) hc
    rw [hhv b (hK'lt b hb), hhv k hk, pv_of_zero hn z1] at f3
    have := pv_lt (T := T) (sa := sa) (i := hd T sa (ord.getD b 0)) hn
    omega
  · intro p hp
    obtain ⟨j, hj, rfl⟩ := hidx p hp
    exact ⟨_, hreq 0 (by omega) (Or.inl rfl), hmono 0 j (by omega) hj (by omega)⟩
  · intro p hp
    obtain ⟨j, hj, rfl⟩ := hidx p hp
    exact ⟨_, hreq (S.length - 1) (by omega) (Or.inr rfl), hmono j _ hj (by omega) (by omega)⟩

end
end Sri
