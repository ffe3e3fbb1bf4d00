import Verif.Proofs.RateMono
import Verif.Proofs.ValidityExact
import Verif.Proofs.ConstructBench
import Verif.Proofs.LegacyBuild
/-! # At a rate of at most one nothing is removed -/
namespace Sri
set_option autoImplicit false
section
variable {T sa K : List Nat}

theorem eq_range_of_sorted {r : Nat} (hs : K.Pairwise (· < ·)) (hm : ∀ k, k ∈ K ↔ k < r) : K = List.range r := by
  have hd : K.Nodup := hs.imp (fun h => by omega)
  have hp : K.Perm (List.range r) := (List.perm_ext_iff_of_nodup hd List.nodup_range).2 (fun k => by rw [hm, List.mem_range])
  exact hp.eq_of_pairwise (fun a b _ _ h1 h2 => by omega) hs List.pairwise_lt_range

theorem SrIndex.OK.all {I : SrIndex} (h : I.OK T sa K) (hs : I.s ≤ 1) : K = List.range (nrun T sa) := by
  refine eq_range_of_sorted h.sorted (fun k => ⟨h.lt k, fun hk => ?_⟩)
  by_contra hc
  obtain ⟨a, b, -, -, g1, g2, g3⟩ := h.sampling.2 (tl T sa k) (tailAt_tl hk) (fun hc' => hc ((h.kept_tl hk).1 hc'))
  omega

theorem SrCSA.OK.all {I : SrCSA} (h : I.OK T sa K) (hs : I.s ≤ 1) : ∀ k, k ∈ K ↔ k < nrun T sa := by
  refine fun k => ⟨h.lt k, fun hk => ?_⟩
  by_contra hc
  obtain ⟨a, b, -, -, g1, g2, g3⟩ := h.sampling.2 (hd T sa k) (headAt_hd hk) (fun ⟨q, hq, he⟩ => hc (hd_inj (h.lt q hq) hk he ▸ hq))
  omega

theorem perm_succ_mod (r : Nat) : ((List.range r).map (fun k => (k + 1) % r)).Perm (List.range r) := by
  rcases Nat.eq_zero_or_pos r with rfl | hr
  · exact List.Perm.refl _
  have hd : ((List.range r).map (fun k => (k + 1) % r)).Nodup := by
    refine List.Nodup.map_on ?_ List.nodup_range
    intro a ha b hb he
    rw [List.mem_range] at ha hb
    have h1 : ∀ x, x < r → (x + 1) % r = if x + 1 = r then 0 else x + 1 := by
      intro x hx
      split
      · next h => rw [h, Nat.mod_self]
      · exact Nat.mod_eq_of_lt (by omega)
    rw [h1 a ha, h1 b hb] at he
    split at he <;> split at he <;> omega
  refine (List.subperm_of_subset hd ?_).perm_of_length_le (by simp)
  intro x hx
  obtain ⟨y, -, rfl⟩ := List.mem_map.1 hx
  exact List.mem_range.2 (Nat.mod_lt _ hr)

theorem mem_subPos_all (hn : 0 < T.length) {m : Nat} : m ∈ subPos T sa (List.range (nrun T sa)) ↔ HeadMark T sa m := by
  refine ⟨subPos_sub (T := T) (sa := sa) (K := List.range (nrun T sa)) hn m, fun h => ?_⟩
  rw [← mem_headPos] at h
  obtain ⟨q, hq, rfl⟩ := List.mem_map.1 h
  rw [List.mem_range] at hq
  have := (perm_succ_mod (nrun T sa)).mem_iff.2 (List.mem_range.2 hq)
  obtain ⟨k, hk, rfl⟩ := List.mem_map.1 this
  exact List.mem_map.2 ⟨k, hk, rfl⟩

/-- the links of the sr-index that keeps every sample are those of the r-index -/
theorem links_all (hsa : IsSA T sa) (hn : 0 < T.length) :
    sortIndices (subPos T sa (List.range (nrun T sa))) = (sortIndices (headPos T sa)).map (fun k => (k + nrun T sa - 1) % nrun T sa) := by
  have hr := nrun_pos (sa := sa) hn
  have h := sortIndices_order (perm_succ_mod (nrun T sa)) (f := fun k => pv T sa (hd T sa k)) (fun a b ha hb he =>
    hd_inj ha hb (pv_inj hsa (hd_lt ha) (hd_lt hb) he))
  rw [List.map_map] at h
  have e1 : (List.range (nrun T sa)).map ((fun k => pv T sa (hd T sa k)) ∘ fun k => (k + 1) % nrun T sa) = subPos T sa (List.range (nrun T sa)) := rfl
  have e2 : (List.range (nrun T sa)).map (fun k => pv T sa (hd T sa k)) = headPos T sa := rfl
  rw [e1, e2] at h
  rw [← h, List.map_map]
  conv_lhs => rw [← List.map_id (sortIndices _)]
  refine List.map_congr_left ?_
  intro k hk
  have hk' : k < nrun T sa := by
    have := List.mem_range.1 ((sortIndices_perm _).mem_iff.1 hk)
    simpa [subPos] using this
  rw [id, Function.comp, List.getD_eq_getElem?_getD, List.getElem?_map, List.getElem?_range hk']
  simp only [Option.map_some, Option.getD_some]
  by_cases h1 : k + 1 = nrun T sa
  · rw [h1, Nat.mod_self, Nat.zero_add, Nat.mod_eq_of_lt (by omega)]; omega
  · rw [Nat.mod_eq_of_lt (show k + 1 < nrun T sa by omega), show k + 1 + nrun T sa - 1 = k + nrun T sa by omega, Nat.add_mod_right,
      Nat.mod_eq_of_lt hk']

/-- SrIndex at a rate of at most one -/
theorem SrIndex.build_one (hT : IsText T) (hsa : IsSA T sa) {s : Nat} (hs : s ≤ 1) :
    ∃ I, SrIndex.build T sa s = some I ∧ RIndex.build T sa = some I.base ∧ ∀ b ∈ I.samplesIdx, b = true := by
  obtain ⟨I, T', K, hb, ok, rfl, hc, -⟩ := SrIndex.build_ok hT hsa s
  obtain ⟨R, T'', hR, okR, hcR⟩ := RIndex.build_ok hT hsa
  obtain rfl := ok.all hs
  have e : I.base.alphabet = R.alphabet ∧ I.base.bwtRle = R.bwtRle ∧ I.base.n = R.n := by
    unfold SrIndex.build at hb
    unfold RIndex.build at hR
    obtain ⟨b, h1, hb⟩ := Option.bind_eq_some_iff.1 hb
    simp only [h1, Option.bind_eq_bind, Option.bind_some] at hR
    iterate 5 obtain ⟨_, -, hb⟩ := Option.bind_eq_some_iff.1 hb
    obtain ⟨n, h2, hb⟩ := Option.bind_eq_some_iff.1 hb
    obtain ⟨_, -, hR⟩ := Option.bind_eq_some_iff.1 hR
    obtain ⟨n', h3, hR⟩ := Option.bind_eq_some_iff.1 hR
    rw [h2, Option.some_inj] at h3
    injection hb with hb
    injection hR with hR
    rw [← hb, ← hR, h3]
    exact ⟨rfl, rfl, rfl⟩
  obtain rfl : T' = T'' := by rw [hc.eq, hcR.eq, e.1]
  refine ⟨I, hb, ?_, ?_⟩
  · rw [hR]
    congr 1
    have s1 : I.base.samples = R.samples := by rw [ok.samples, okR.samples]; rfl
    have s2 : I.base.marks = R.marks := by
      rw [ok.marks, okR.marks]
      refine List.map_congr_left (fun m _ => ?_)
      rw [decide_eq_decide, mem_subPos_all hc.text.pos, mem_headPos]
    have s3 : I.base.markToSample = R.markToSample := by rw [ok.links, okR.links, links_all hc.isSA hc.text.pos]
    have hI : I.base = ⟨I.base.alphabet, I.base.bwtRle, I.base.samples, I.base.marks, I.base.markToSample, I.base.n⟩ := rfl
    rw [hI, s1, s2, s3, e.1, e.2.1, e.2.2]
  · intro b hb'
    rw [ok.samplesIdx] at hb'
    obtain ⟨i, hi, rfl⟩ := List.mem_map.1 hb'
    exact decide_eq_true hi

/-- the marks of an index over psi that keeps every sample are the tails of all the runs -/
theorem SrCSA.OK.mem_all {I : SrCSA} (h : I.OK T sa K) (hK : ∀ k, k ∈ K ↔ k < nrun T sa) {m : Nat} :
    m ∈ K.map (mkOf T sa) ↔ TailMark T sa m := by
  refine ⟨fun hm => h.sub_mark hm, fun hm => ?_⟩
  rw [← mem_tailPos] at hm
  have hl : K.length = nrun T sa := nodup_length_eq h.nodup h.lt (fun k hk => (hK k).2 hk)
  have hp : (K.map (mkOf T sa)).Perm (tailPos T sa) :=
    (List.subperm_of_subset h.sub_nodup (fun x hx => mem_tailPos.2 (h.sub_mark hx))).perm_of_length_le (by
      rw [tailPos_length, List.length_map, hl])
  exact hp.mem_iff.2 hm

/-- so it has the marks and links of the r-CSA with the same samples -/
theorem SrCSA.OK.one {I : SrCSA} {R : RCSA} {ord : List Nat} {lnk : Nat → Nat} (h : I.OK T sa K) (hK : ∀ k, k ∈ K ↔ k < nrun T sa)
    (hR : R.OK T sa ord lnk) (hs : I.samples = R.samples) (hl : I.markToSample.length = nrun T sa) :
    I.marks = R.marks ∧ I.markToSample = R.markToSample := by
  have hT := h.nav.text
  have hsa := h.nav.isSA
  have hkl : K.length = nrun T sa := nodup_length_eq h.nodup h.lt (fun k hk => (hK k).2 hk)
  have hol : ord.length = nrun T sa := by rw [hR.perm.length_eq, List.length_range]
  refine ⟨?_, ?_⟩
  · rw [h.marks, hR.marks]
    refine List.map_congr_left (fun m _ => ?_)
    rw [decide_eq_decide, h.mem_all hK, hR.mem_marks]
  · have hrl : R.markToSample.length = nrun T sa := by rw [hR.links, List.length_map, sortIndices_length, List.length_map, hol]
    have hp : (K.map (mkOf T sa)).Perm (ord.map (fun q => pv T sa (tl T sa q))) :=
      (List.perm_ext_iff_of_nodup h.sub_nodup hR.nodup).2 (fun m => by rw [h.mem_all hK, hR.mem_marks])
    have hst : ∀ {l : List Nat}, l.Nodup → (sortBy (fun x => x) l).Pairwise (· < ·) := fun hl =>
      sortBy_strict (by rw [show (fun x : Nat => x) = id from rfl, List.map_id]; exact hl)
    have hsort : sortBy (fun x => x) (K.map (mkOf T sa)) = sortBy (fun x => x) (ord.map (fun q => pv T sa (tl T sa q))) :=
      ((sortBy_perm _ _).trans (hp.trans (sortBy_perm _ _).symm)).eq_of_pairwise (fun a b _ _ h1 h2 => by omega) (hst h.sub_nodup) (hst hR.nodup)
    rw [← LegacyBuild.sortIndices_vals h.sub_nodup, ← LegacyBuild.sortIndices_vals hR.nodup] at hsort
    refine List.ext_getElem? (fun o => ?_)
    by_cases ho : o < nrun T sa
    · have hl1 : (sortIndices (K.map (mkOf T sa))).length = nrun T sa := by rw [sortIndices_length, List.length_map, hkl]
      have hl2 : (sortIndices (ord.map (fun q => pv T sa (tl T sa q)))).length = nrun T sa := by rw [sortIndices_length, List.length_map, hol]
      obtain ⟨k, hk⟩ : ∃ k, (sortIndices (K.map (mkOf T sa)))[o]? = some k := ⟨_, List.getElem?_eq_getElem (by omega)⟩
      obtain ⟨k2, hk2⟩ : ∃ k, (sortIndices (ord.map (fun q => pv T sa (tl T sa q))))[o]? = some k := ⟨_, List.getElem?_eq_getElem (by omega)⟩
      have hkb : k < K.length := by
        have := List.mem_range.1 ((sortIndices_perm _).mem_iff.1 (List.mem_of_getElem? hk)); rwa [List.length_map] at this
      have hkb2 : k2 < ord.length := by
        have := List.mem_range.1 ((sortIndices_perm _).mem_iff.1 (List.mem_of_getElem? hk2)); rwa [List.length_map] at this
      obtain ⟨j, j1, j2⟩ := h.link o k K[k] hk (List.getElem?_eq_getElem hkb)
      obtain ⟨q', q1, q2⟩ := hR.link k2 ord[k2] (List.getElem?_eq_getElem hkb2)
      have hval := congrArg (fun l => l[o]?) hsort
      simp only [List.getElem?_map, hk, hk2, Option.map_some, Option.some_inj] at hval
      rw [List.getD_eq_getElem?_getD, List.getD_eq_getElem?_getD, List.getElem?_map, List.getElem?_map, List.getElem?_eq_getElem hkb,
        List.getElem?_eq_getElem hkb2] at hval
      simp only [Option.map_some, Option.getD_some] at hval
      have hm := mkOf_after hsa (tl_lt (hR.mem_ord.1 (List.getElem_mem hkb2))) q2
      have hq : K[k] = q' := mkOf_inj hsa (h.lt _ (List.getElem_mem hkb)) (hR.mem_ord.1 (List.mem_of_getElem? q1)) (by rw [hval, hm])
      have hRl : R.markToSample[o]? = some (lnk k2) := by rw [hR.links, List.getElem?_map, hk2]; rfl
      rw [j1, hRl]
      congr 1
      have hlk : R.samples[lnk k2]? = some (pv T sa (hd T sa q')) := by rw [hR.samples, List.getElem?_map, q1]; rfl
      rw [hs, hq] at j2
      have hnd : R.samples.Nodup := by
        rw [hR.samples]
        refine List.Nodup.map_on ?_ (hR.perm.nodup_iff.2 List.nodup_range)
        intro a ha b hb he
        exact hd_inj (hR.mem_ord.1 ha) (hR.mem_ord.1 hb) (pv_inj hsa (hd_lt (hR.mem_ord.1 ha)) (hd_lt (hR.mem_ord.1 hb)) he)
      obtain ⟨u1, v1⟩ := List.getElem?_eq_some_iff.1 j2
      obtain ⟨u2, v2⟩ := List.getElem?_eq_some_iff.1 hlk
      exact (hnd.getElem_inj_iff (hi := u1) (hj := u2)).1 (by rw [v1, v2])
    · rw [List.getElem?_eq_none (by omega), List.getElem?_eq_none (by omega)]

/-- what an index over psi and an r-CSA have in common -/
def SameItems (I : SrCSA) (R : RCSA) : Prop :=
  I.alphabet = R.alphabet ∧ I.psi = R.psi ∧ I.n = R.n ∧ I.samples = R.samples ∧ I.marks = R.marks ∧ I.markToSample = R.markToSample

theorem SrCSA.build_one (hT : IsText T) (hsa : IsSA T sa) (hn : T.length < W64) {s : Nat} (hs : s ≤ 1) :
    ∃ I R, SrCSA.build T sa s = some I ∧ RCSABwt.build T sa = some R ∧ SameItems I R := by
  obtain ⟨I, T', K, hb, ok, st, rfl, hc⟩ := SrCSA.build_ok hT hsa hn s
  obtain ⟨R, T'', hR, okR, hcR⟩ := RCSABwt.build_ok hT hsa hn
  obtain ⟨J, k, hJ, z⟩ := SrCSA.build_sizes hT hsa hn I.s
  rw [hb, Option.some_inj] at hJ
  subst hJ
  have e : I.alphabet = R.alphabet ∧ I.psi = R.psi ∧ I.n = R.n := by
    have hb' := hb
    unfold SrCSA.build SrCSA.commons at hb'
    unfold RCSABwt.build at hR
    simp only [Option.bind_eq_bind, Option.bind_assoc] at hb'
    obtain ⟨b, h1, hb'⟩ := Option.bind_eq_some_iff.1 hb'
    simp only [h1, Option.bind_eq_bind, Option.bind_some] at hR
    obtain ⟨p, h2, hb'⟩ := Option.bind_eq_some_iff.1 hb'
    simp only [h2, Option.bind_some] at hR
    iterate 4 obtain ⟨_, -, hb'⟩ := Option.bind_eq_some_iff.1 hb'
    simp only [Option.pure_def, Option.bind_some] at hb'
    iterate 3 obtain ⟨_, -, hb'⟩ := Option.bind_eq_some_iff.1 hb'
    obtain ⟨n, h3, hb'⟩ := Option.bind_eq_some_iff.1 hb'
    iterate 2 obtain ⟨_, -, hR⟩ := Option.bind_eq_some_iff.1 hR
    obtain ⟨n', h4, hR⟩ := Option.bind_eq_some_iff.1 hR
    rw [h3, Option.some_inj] at h4
    injection hb' with hb'
    injection hR with hR
    rw [← hb', ← hR, h4]
    exact ⟨rfl, rfl, rfl⟩
  obtain rfl : T' = T'' := by rw [hc.eq, hcR.eq, e.1]
  have hK := ok.all hs
  obtain rfl := eq_range_of_sorted st.sorted hK
  have hsm : I.samples = R.samples := by rw [st.samples, okR.samples]
  have hlk : I.markToSample.length = nrun T' sa := by
    have h1 : I.markToSample.length = k := z.links
    rw [h1, z.all hs, hc.nrun_eq hT hsa]
  obtain ⟨g1, g2⟩ := ok.one hK okR hsm hlk
  exact ⟨I, R, hb, hR, e.1, e.2.1, e.2.2, hsm, g1, g2⟩

/-- and every run is recorded as sampled -/
theorem SrCSA.IdxStore.one {I : SrCSA} (st : I.IdxStore T sa K) (ok : I.OK T sa K) (hs : I.s ≤ 1)
    (hp : (psiOrd T sa I.alphabet.sigma).Perm (List.range (nrun T sa))) : ∀ b ∈ I.samplesIdx, b = true := by
  intro b hb
  rw [st.samplesIdx] at hb
  obtain ⟨q, hq, rfl⟩ := List.mem_map.1 hb
  exact decide_eq_true ((ok.all hs q).2 (List.mem_range.1 (hp.mem_iff.1 hq)))

theorem SrCSA.build_one_of {I : SrCSA} {R : RCSA} {T' : List Nat} {s k : Nat} (hT : IsText T) (hsa : IsSA T sa) (ok : I.OK T' sa K)
    (st : I.IdxStore T' sa K) (hc : Compact T sa I.alphabet T') (z : SubSizes I.stored T.length (nrun T sa) s k) (hs : s ≤ 1) (hIs : I.s = s)
    (hR : RCSAPsi.build T sa = some R) (hn : T.length < W64) (e : I.alphabet = R.alphabet ∧ I.psi = R.psi ∧ I.n = R.n) :
    SameItems I R ∧ ∀ b ∈ I.samplesIdx, b = true := by
  obtain ⟨R', T'', hR', hcR, okR⟩ := RCSAPsi.build_ok hT hsa hn
  rw [hR, Option.some_inj] at hR'
  subst hR'
  obtain rfl : T' = T'' := by rw [hc.eq, hcR.eq, e.1]
  have hK := ok.all (by omega)
  have hsm : I.samples = R.samples := by
    rw [st.samples, okR.samples, e.1, List.filter_eq_self.2 (fun q hq => decide_eq_true ((hK q).2 (okR.mem_ord.1 hq)))]
  have hlk : I.markToSample.length = nrun T' sa := by
    have h1 : I.markToSample.length = k := z.links
    rw [h1, z.all hs, hc.nrun_eq hT hsa]
  obtain ⟨g1, g2⟩ := ok.one hK okR hsm hlk
  exact ⟨⟨e.1, e.2.1, e.2.2, hsm, g1, g2⟩, st.one ok (by omega) (by rw [e.1]; exact okR.perm)⟩

theorem SrCSA.buildSlim_one (hT : IsText T) (hsa : IsSA T sa) (hn : T.length < W64) {s : Nat} (hs : s ≤ 1) :
    ∃ I R, SrCSA.buildSlim T sa s = some I ∧ RCSAPsi.build T sa = some R ∧ SameItems I R ∧ ∀ b ∈ I.samplesIdx, b = true := by
  obtain ⟨I, T', K, hb, ok, st, hIs, hc⟩ := SrCSA.buildSlim_ok hT hsa hn s
  obtain ⟨R, T'', hR, hcR, okR⟩ := RCSAPsi.build_ok hT hsa hn
  obtain ⟨J, k, hJ, z⟩ := SrCSA.buildSlim_sizes hT hsa hn s
  rw [hb, Option.some_inj] at hJ
  subst hJ
  refine ⟨I, R, hb, hR, SrCSA.build_one_of hT hsa ok st hc z hs hIs hR hn ?_⟩
  have hb' := hb
  unfold SrCSA.buildSlim at hb'
  unfold RCSAPsi.build at hR
  obtain ⟨c, hc', hb'⟩ := Option.bind_eq_some_iff.1 hb'
  unfold SrCSA.commons at hc'
  obtain ⟨b, h1, hc'⟩ := Option.bind_eq_some_iff.1 hc'
  obtain ⟨p, h2, hc'⟩ := Option.bind_eq_some_iff.1 hc'
  iterate 4 obtain ⟨_, -, hc'⟩ := Option.bind_eq_some_iff.1 hc'
  injection hc' with hc'
  subst hc'
  iterate 6 obtain ⟨_, -, hb'⟩ := Option.bind_eq_some_iff.1 hb'
  obtain ⟨n, h3, hb'⟩ := Option.bind_eq_some_iff.1 hb'
  obtain ⟨b', g1, hR⟩ := Option.bind_eq_some_iff.1 hR
  obtain ⟨p', g2, hR⟩ := Option.bind_eq_some_iff.1 hR
  rw [h1, Option.some_inj] at g1
  subst g1
  rw [h2, Option.some_inj] at g2
  subst g2
  iterate 4 obtain ⟨_, -, hR⟩ := Option.bind_eq_some_iff.1 hR
  obtain ⟨n', h4, hR⟩ := Option.bind_eq_some_iff.1 hR
  rw [h3, Option.some_inj] at h4
  injection hb' with hb'
  injection hR with hR
  rw [← hb', ← hR, h4]
  exact ⟨rfl, rfl, rfl⟩

theorem SrCSA.buildPsi_one (hT : IsText T) (hsa : IsSA T sa) (hn : T.length < W64) {s : Nat} (hs : s ≤ 1) :
    ∃ I R, SrCSA.buildPsi T sa s = some I ∧ RCSAPsi.build T sa = some R ∧ SameItems I R ∧ ∀ b ∈ I.samplesIdx, b = true := by
  obtain ⟨I, T', K, hb, ok, st, hIs, hc⟩ := SrCSA.buildPsi_ok hT hsa hn s
  obtain ⟨R, T'', hR, hcR, okR⟩ := RCSAPsi.build_ok hT hsa hn
  obtain ⟨J, k, hJ, z⟩ := SrCSA.buildPsi_sizes hT hsa hn s
  rw [hb, Option.some_inj] at hJ
  subst hJ
  refine ⟨I, R, hb, hR, SrCSA.build_one_of hT hsa ok st hc z hs hIs hR hn ?_⟩
  have hb' := hb
  unfold SrCSA.buildPsi at hb'
  unfold RCSAPsi.build at hR
  obtain ⟨c, hc', hb'⟩ := Option.bind_eq_some_iff.1 hb'
  unfold SrCSA.commonsPsi at hc'
  obtain ⟨b, h1, hc'⟩ := Option.bind_eq_some_iff.1 hc'
  obtain ⟨p, h2, hc'⟩ := Option.bind_eq_some_iff.1 hc'
  iterate 9 obtain ⟨_, -, hc'⟩ := Option.bind_eq_some_iff.1 hc'
  obtain ⟨n, h3, hc'⟩ := Option.bind_eq_some_iff.1 hc'
  obtain ⟨b', g1, hR⟩ := Option.bind_eq_some_iff.1 hR
  obtain ⟨p', g2, hR⟩ := Option.bind_eq_some_iff.1 hR
  rw [h1, Option.some_inj] at g1
  subst g1
  rw [h2, Option.some_inj] at g2
  subst g2
  iterate 4 obtain ⟨_, -, hR⟩ := Option.bind_eq_some_iff.1 hR
  obtain ⟨n', h4, hR⟩ := Option.bind_eq_some_iff.1 hR
  rw [h3, Option.some_inj] at h4
  injection hc' with hc'
  injection hb' with hb'
  injection hR with hR
  rw [← hb', ← hc', ← hR, h4]
  exact ⟨rfl, rfl, rfl⟩

/-- when nothing is removed no mark is reported -/
theorem SrCSAValid.OK.one {I : SrCSAValid} {V : List (Nat × Nat)} (h : I.OK T sa K V) (hs : I.csa.s ≤ 1) :
    I.validAreas = [] ∧ ∀ b ∈ I.validMarks, b = true := by
  have hV : V = [] := by
    rw [List.eq_nil_iff_forall_not_mem]
    intro q hq
    obtain ⟨x, -, -, m, m1, m2, -⟩ := h.entry q hq
    exact m2 ((h.csa.mem_all (h.csa.all hs)).2 m1)
  subst hV
  refine ⟨h.areas, fun b hb => ?_⟩
  rw [h.marks] at hb
  obtain ⟨i, -, rfl⟩ := List.mem_map.1 hb
  rfl

theorem SrIndexValid.OK.one {I : SrIndexValid} {V : List (Nat × Nat × Nat)} (h : I.OK T sa K V) (hs : I.sr.s ≤ 1) :
    I.validAreas = [] ∧ ∀ b ∈ I.validMarks, b = true := by
  have hV : V = [] := by
    rw [List.eq_nil_iff_forall_not_mem]
    intro q hq
    obtain ⟨-, -, -, m1, m2⟩ := h.entry q hq
    have := h.sr.all hs
    subst this
    exact m2 ((mem_subPos_all h.sr.nav.text.pos).2 m1)
  subst hV
  refine ⟨?_, fun b hb => ?_⟩
  · obtain ⟨e, -, he⟩ := h.areas
    exact he
  · rw [h.marks] at hb
    obtain ⟨i, -, rfl⟩ := List.mem_map.1 hb
    rfl

end
end Sri
