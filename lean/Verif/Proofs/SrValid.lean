import Verif.Proofs.Validity
/-! # SrIndexValidMark and SrIndexValidArea -/
namespace Sri
set_option autoImplicit false

/-- strictly increasing lists: containment is a sublist -/
theorem sublist_of_subset {l : List Nat} : ∀ {s : List Nat}, s.Pairwise (· < ·) → l.Pairwise (· < ·) → (∀ x ∈ s, x ∈ l) →
    List.Sublist s l := by
  induction l with
  | nil =>
    intro s _ _ h
    cases s with
    | nil => simp
    | cons a s => have := h a (by simp); simp at this
  | cons b l ih =>
    intro s hs hl h
    cases s with
    | nil => simp
    | cons a s =>
      rw [List.pairwise_cons] at hl hs
      by_cases hab : a = b
      · subst hab
        refine List.Sublist.cons_cons _ (ih hs.2 hl.2 (fun x hx => ?_))
        rcases List.mem_cons.1 (h x (by simp [hx])) with h1 | h1
        · have := hs.1 x hx; omega
        · exact h1
      · refine List.Sublist.cons _ (ih (List.pairwise_cons.2 hs) hl.2 (fun x hx => ?_))
        have hal : a ∈ l := by
          rcases List.mem_cons.1 (h a (by simp)) with h1 | h1
          · exact absurd h1 hab
          · exact h1
        rcases List.mem_cons.1 hx with rfl | hx'
        · exact hal
        · rcases List.mem_cons.1 (h x hx) with h1 | h1
          · have := hs.1 x hx'
            have := hl.1 a hal; omega
          · exact h1

theorem head_of_min {l s : List Nat} (hl : l.Pairwise (· < ·)) (hs : s.Pairwise (· < ·)) (hsub : ∀ x ∈ s, x ∈ l) (hne : l ≠ [])
    (h : ∀ q ∈ l, ∃ x ∈ s, x ≤ q) : s.head? = l.head? := by
  cases l with
  | nil => simp at hne
  | cons b l =>
    obtain ⟨x, hx, hxb⟩ := h b (by simp)
    cases s with
    | nil => simp at hx
    | cons a s =>
      rw [List.pairwise_cons] at hl hs
      have h1 : a ≤ x := by
        rcases List.mem_cons.1 hx with rfl | hx
        · exact Nat.le_refl _
        · have := hs.1 x hx; omega
      have h2 : b ≤ a := by
        rcases List.mem_cons.1 (hsub a (by simp)) with h1 | h1
        · omega
        · have := hl.1 a h1; omega
      simp; omega

theorem last_max {l : List Nat} (hl : l.Pairwise (· < ·)) {z : Nat} (hz : l.getLast? = some z) : ∀ x ∈ l, x ≤ z := by
  intro x hx
  obtain ⟨a, rfl⟩ := List.getLast?_eq_some_iff.1 hz
  rw [List.pairwise_append] at hl
  rcases List.mem_append.1 hx with h | h
  · have := hl.2.2 x h z (by simp); omega
  · simp at h; omega

theorem last_of_max {l s : List Nat} (hl : l.Pairwise (· < ·)) (hs : s.Pairwise (· < ·)) (hsub : ∀ x ∈ s, x ∈ l) (hne : l ≠ [])
    (h : ∀ q ∈ l, ∃ x ∈ s, q ≤ x) : s.getLast? = l.getLast? := by
  cases hz : l.getLast? with
  | none => simp at hz; exact absurd hz hne
  | some z =>
    obtain ⟨x, hx, hxz⟩ := h z (List.mem_of_getLast? hz)
    cases hy : s.getLast? with
    | none => simp at hy; subst hy; simp at hx
    | some y =>
      have h1 := last_max hs hy x hx
      have h2 := last_max hl hz y (hsub y (List.mem_of_getLast? hy))
      congr 1; omega

section
variable {T sa K : List Nat}

namespace SrIndexValid

/-- what a built index with validity information holds -/
structure OK (I : SrIndexValid) (T sa K : List Nat) (V : List (Nat × Nat × Nat)) : Prop where
  sr : I.sr.OK T sa K
  marks : I.validMarks = (List.range K.length).map (fun i => if i ∈ V.map (·.1) then false else true)
  areas : ∃ e, e ≤ 1 ∧ I.validAreas = V.map (fun q => q.2.2 - q.2.1 + e)
  sorted : V.Pairwise (fun a b => a.1 < b.1)
  entry : ∀ q ∈ V, (sortBy (fun x => x) (subPos T sa K))[q.1]? = some q.2.1 ∧ q.2.1 < q.2.2 ∧
    (∀ m, HeadMark T sa m → q.2.1 < m → q.2.2 ≤ m) ∧ HeadMark T sa q.2.2 ∧ q.2.2 ∉ subPos T sa K
  gap : ∀ j x, (sortBy (fun x => x) (subPos T sa K))[j]? = some x → (∀ q ∈ V, q.1 ≠ j) → ∀ m, HeadMark T sa m → x < m →
    ∃ y, (sortBy (fun x => x) (subPos T sa K))[j+1]? = some y ∧ y ≤ m

variable {I : SrIndexValid} {V : List (Nat × Nat × Nat)}

/-- predecessor among the kept marks is the true one when its validity bit is set, or when the distance is inside the valid area -/
theorem OK.circ (h : I.OK T sa K V) {v p o : Nat} (ho : (sortBy (fun x => x) (subPos T sa K))[o]? = some p)
    (hp : CircPred (· ∈ subPos T sa K) v p)
    (hc : (∀ q ∈ V, q.1 ≠ o) ∨ ∃ q ∈ V, q.1 = o ∧ (p < v → v - p ≤ q.2.2 - q.2.1)) :
    CircPred (HeadMark T sa) v p := by
  have hn := h.sr.nav.text.pos
  refine circ_of_gap (subPos_sub hn) hp h.sr.first h.sr.last ?_
  intro hpv q hq hpq
  rcases hc with hc | ⟨e, he, heo, hea⟩
  · obtain ⟨y, hy, hyq⟩ := h.gap o p ho hc q hq hpq
    have hym : y ∈ subPos T sa K := (sortBy_perm _ _).mem_iff.1 (List.mem_of_getElem? hy)
    by_contra hcon
    have h1 := (hp.2.1 ⟨y, hym, by omega⟩).2 y hym (by omega)
    -- the next kept mark is greater than this one
    have hnd := subPos_nodup hn h.sr.nav.isSA h.sr.nodup h.sr.lt
    have hs : (sortBy (fun x => x) (subPos T sa K)).Pairwise (fun a b => a < b) := sortBy_strict (by simpa using hnd)
    obtain ⟨l1, rfl⟩ := List.getElem?_eq_some_iff.1 ho
    obtain ⟨l2, rfl⟩ := List.getElem?_eq_some_iff.1 hy
    have := List.pairwise_iff_getElem.1 hs o (o+1) l1 l2 (by omega)
    omega
  · obtain ⟨g1, g2, g3, -⟩ := h.entry e he
    rw [heo, ho, Option.some_inj] at g1
    have := g3 q hq (by omega)
    have := hea hpv
    omega

theorem OK.valid_bit (h : I.OK T sa K V) {o : Nat} (ho : o < K.length) :
    I.validMarks[o]? = some (if o ∈ V.map (·.1) then false else true) := by
  rw [h.marks, List.getElem?_map, List.getElem?_range ho]; rfl

/-- the area of an untrusted mark -/
theorem OK.area (h : I.OK T sa K V) {w : Nat} (hw : I.validAreas = V.map (fun q => q.2.2 - q.2.1 + w))
    {q : Nat × Nat × Nat} (hq : q ∈ V) (hlt : q.1 < K.length) :
    (rank0 I.validMarks q.1).bind (fun k => I.validAreas[k]?) = some (q.2.2 - q.2.1 + w) := by
  have hnd : (V.map (·.1)).Nodup := by
    rw [List.Nodup, List.pairwise_map]
    exact h.sorted.imp (fun h => by omega)
  have hcnt : ((I.validMarks.take q.1).count false) = (V.map (·.1)).countP (fun a => decide (a < q.1)) := by
    rw [← count_bits hnd (n := K.length) (p := q.1) (by omega), h.marks, ← List.map_take, ← List.map_take]
    rw [List.count_eq_countP, List.count_eq_countP, List.countP_map, List.countP_map]
    apply List.countP_congr
    intro i _
    by_cases hi : i ∈ V.map (·.1) <;> simp [hi]
  have hidx : V[(V.map (·.1)).countP (fun a => decide (a < q.1))]? = some q := by
    rw [List.countP_map]
    have := h.sorted
    clear hcnt hnd hlt hw
    induction V with
    | nil => simp at hq
    | cons x V ih =>
      rw [List.pairwise_cons] at this
      rcases List.mem_cons.1 hq with rfl | hq
      · have h0 : (q :: V).countP ((fun a => decide (a < q.1)) ∘ (·.1)) = 0 := by
          rw [List.countP_eq_zero]
          intro a ha
          rcases List.mem_cons.1 ha with rfl | ha
          · simp
          · have := this.1 a ha; simp; omega
        rw [h0]; rfl
      · have h1 := this.1 q hq
        rw [List.countP_cons_of_pos (by simpa using h1), List.getElem?_cons_succ]
        clear h
        -- the invariant is not needed for the list fact
        have aux : ∀ (W : List (Nat × Nat × Nat)), q ∈ W → W.Pairwise (fun a b => a.1 < b.1) →
            W[W.countP ((fun a => decide (a < q.1)) ∘ (·.1))]? = some q := by
          intro W
          induction W with
          | nil => intro h; simp at h
          | cons y W ihW =>
            intro hqW hpW
            rw [List.pairwise_cons] at hpW
            rcases List.mem_cons.1 hqW with rfl | hqW
            · have h0 : (q :: W).countP ((fun a => decide (a < q.1)) ∘ (·.1)) = 0 := by
                rw [List.countP_eq_zero]
                intro a ha
                rcases List.mem_cons.1 ha with rfl | ha
                · simp
                · have := hpW.1 a ha; simp; omega
              rw [h0]; rfl
            · have h1 := hpW.1 q hqW
              rw [List.countP_cons_of_pos (by simpa using h1), List.getElem?_cons_succ]
              exact ihW hqW hpW.2
        exact aux V hq this.2
  have hl : q.1 ≤ I.validMarks.length := by rw [h.marks]; simp; omega
  rw [rank0, if_pos hl, Option.bind_some, hcnt, hw, List.getElem?_map, hidx]; rfl

/-- both phi functors: the value, and the reason for the flag -/
theorem OK.phi_spec (h : I.OK T sa K V) {i : Nat} (h1 : 1 ≤ i) (hi : i < T.length) :
    ∃ v okm oka, I.phiMark (saAt sa i) = some (v, okm) ∧ I.phiArea (saAt sa i) = some (v, oka) ∧
      (okm = true → v = saAt sa (i-1)) ∧ (oka = true → v = saAt sa (i-1)) ∧
      ((∀ e, e < I.sr.s → ¬ keptOf T sa K (lfIt T sa e (i-1))) → v = saAt sa (i-1)) ∧ (okm = true → oka = true) := by
  have hn := h.sr.nav.text.pos
  have hlast := sa_ne_last h.sr.nav.text h.sr.nav.isSA h1 hi
  obtain ⟨o, k, p, e1, e2, e3, e4, e5, y, e6, e7, e8⟩ := h.sr.pred h1 hi
  set delta := (if p < saAt sa i then saAt sa i - p else saAt sa i + 1) with hdelta
  have hbit := h.valid_bit e4
  have hm : I.phiMark (saAt sa i) = some ((y + delta) % T.length, if o ∈ V.map (·.1) then false else true) := by
    unfold phiMark phiBackward
    simp only [h.sr.nav.n, csub, show 1 ≤ T.length by omega, if_true, Option.bind_eq_bind, Option.bind_some, assertC,
      show saAt sa i ≠ T.length - 1 by omega, ne_eq, not_false_eq_true, decide_true, e1]
    unfold getSampleForPhi validatorDefault
    simp only [e2, hbit, Option.bind_eq_bind, Option.bind_some, e6, cmod, show T.length ≠ 0 by omega, if_false, Option.pure_def, ← hdelta]
  have hval : CircPred (HeadMark T sa) (saAt sa i) p → (y + delta) % T.length = saAt sa (i-1) := e7
  by_cases hmem : o ∈ V.map (·.1)
  · obtain ⟨q, hq, hqo⟩ := List.mem_map.1 hmem
    subst hqo
    obtain ⟨w, hw, har⟩ := h.areas
    replace har := h.area har hq e4
    have ha : I.phiArea (saAt sa i) = some ((y + delta) % T.length, !decide (q.2.2 - q.2.1 + w ≤ delta)) := by
      unfold phiArea phiBackward
      simp only [h.sr.nav.n, csub, show 1 ≤ T.length by omega, if_true, Option.bind_eq_bind, Option.bind_some, assertC,
        show saAt sa i ≠ T.length - 1 by omega, ne_eq, not_false_eq_true, decide_true, e1]
      unfold getSampleForPhi validatorArea
      rw [if_pos hmem] at hbit
      cases hr0 : rank0 I.validMarks q.1 with
      | none => rw [hr0] at har; cases har
      | some r0 =>
        rw [hr0, Option.bind_some] at har
        simp only [e2, hbit, Option.bind_eq_bind, Option.bind_some, e6, har, cmod, show T.length ≠ 0 by omega, if_false,
          Bool.false_eq_true, Option.pure_def, ← hdelta]
    refine ⟨_, _, _, hm, ha, ?_, ?_, fun hno => hval (e8 hno), ?_⟩
    · rw [if_pos hmem]; intro hc; cases hc
    · intro hc
      refine hval (h.circ e3 e5 (Or.inr ⟨q, hq, rfl, fun hpv => ?_⟩))
      simp only [Bool.not_eq_eq_eq_not, Bool.not_true, decide_eq_false_iff_not, Nat.not_le] at hc
      rw [hdelta, if_pos hpv] at hc
      omega
    · rw [if_pos hmem]; intro hc; cases hc
  · have ha : I.phiArea (saAt sa i) = some ((y + delta) % T.length, true) := by
      unfold phiArea phiBackward
      simp only [h.sr.nav.n, csub, show 1 ≤ T.length by omega, if_true, Option.bind_eq_bind, Option.bind_some, assertC,
        show saAt sa i ≠ T.length - 1 by omega, ne_eq, not_false_eq_true, decide_true, e1]
      unfold getSampleForPhi validatorArea
      rw [if_neg hmem] at hbit
      simp only [e2, hbit, Option.bind_eq_bind, Option.bind_some, e6, cmod, show T.length ≠ 0 by omega, if_false,
        if_true, Option.pure_def, ← hdelta]
    have hok := hval (h.circ e3 e5 (Or.inl (fun q hq hc => hmem (List.mem_map.2 ⟨q, hq, hc⟩))))
    exact ⟨_, _, _, hm, ha, fun _ => hok, fun _ => hok, fun _ => hok, fun _ => rfl⟩

theorem OK.phiOK_mark (h : I.OK T sa K V) : PhiOK T sa I.sr.s (keptOf T sa K) I.phiMark := fun i h1 hi => by
  obtain ⟨v, okm, oka, e1, e2, e3, e4, e5, -⟩ := h.phi_spec h1 hi
  exact ⟨v, okm, e1, e5⟩

theorem OK.phiOK_area (h : I.OK T sa K V) : PhiOK T sa I.sr.s (keptOf T sa K) I.phiArea := fun i h1 hi => by
  obtain ⟨v, okm, oka, e1, e2, e3, e4, e5, -⟩ := h.phi_spec h1 hi
  exact ⟨v, oka, e2, e5⟩

theorem OK.phiValid_mark (h : I.OK T sa K V) : PhiValid T sa I.phiMark := fun i v h1 hi hv => by
  obtain ⟨w, okm, oka, e1, e2, e3, e4, e5, -⟩ := h.phi_spec h1 hi
  rw [hv, Option.some_inj, Prod.mk.injEq] at e1
  obtain ⟨rfl, rfl⟩ := e1
  exact e3 rfl

theorem OK.phiValid_area (h : I.OK T sa K V) : PhiValid T sa I.phiArea := fun i v h1 hi hv => by
  obtain ⟨w, okm, oka, e1, e2, e3, e4, e5, -⟩ := h.phi_spec h1 hi
  rw [hv, Option.some_inj, Prod.mk.injEq] at e2
  obtain ⟨rfl, rfl⟩ := e2
  exact e4 rfl

theorem OK.phiForRange_eq (h : I.OK T sa K V) {phi : Nat → Option (Nat × Bool)} (hp : PhiOK T sa I.sr.s (keptOf T sa K) phi)
    (hv : PhiValid T sa phi) (a b : Nat) (ha : 1 ≤ a) (hab : a ≤ b) (hb : b < T.length) :
    I.phiForRange phi ⟨a, b⟩ (saAt sa b) = some (down sa a (b - a)) := by
  unfold phiForRange
  dsimp only
  by_cases hlt : a < b
  · rw [if_pos hlt]
    obtain ⟨l, e1, e2⟩ := split_pieces h.sr.nav hlt (by omega)
    rw [e1]
    exact backRangeV_spec (h.sr.backOK hp) hv ha hlt hb e2.rev
  · rw [if_neg hlt, show b - a = 0 by omega]; rfl

/-- construction establishes the invariant over the compacted text; how the sampled runs and the reports on the marks come about -/
theorem build_ok' (hT : IsText T) (hsa : IsSA T sa) (s : Nat) :
    ∃ I T' K V, SrIndexValid.build T sa s = some I ∧ I.OK T' sa K V ∧ I.sr.s = s ∧ Compact T sa I.sr.base.alphabet T' ∧
      SrIndex.subsampleIdx s (tailPos T' sa) (sortIndices (tailPos T' sa)) (linksPhiBackward (headPos T' sa)).2 = some K ∧
      computeSubmarksValidity ((sortIndices (headPos T' sa)).map (fun i => (headPos T' sa).getD i 0)) (sortBy (fun x => x) (subPos T' sa K)) = some V ∧
      I.validAreas = V.map (fun q => q.2.2 - q.2.1) := by
  obtain ⟨b, T', hb, bok⟩ := base_build hT hsa
  obtain ⟨sr, T'', K, hsr, ok, hs, hc, hidx⟩ := SrIndex.build_ok hT hsa s
  -- both describe the same compacted text
  have hTT : T'' = T' := by
    have h1 : sr.base.alphabet = b.alphabet := by
      unfold SrIndex.build at hsr
      simp only [hb, Option.bind_eq_bind, Option.bind_some] at hsr
      obtain ⟨_, _, hsr⟩ := Option.bind_eq_some_iff.1 hsr
      obtain ⟨_, _, hsr⟩ := Option.bind_eq_some_iff.1 hsr
      obtain ⟨_, _, hsr⟩ := Option.bind_eq_some_iff.1 hsr
      obtain ⟨_, _, hsr⟩ := Option.bind_eq_some_iff.1 hsr
      obtain ⟨_, _, hsr⟩ := Option.bind_eq_some_iff.1 hsr
      obtain ⟨_, _, hsr⟩ := Option.bind_eq_some_iff.1 hsr
      injection hsr with hsr
      rw [← hsr]
    rw [hc.eq, bok.compact.eq, h1]
  subst hTT
  have hn' := hc.text.pos
  have hlen := List.length_pos_iff.2 ok.ne
  have hmarks : (linksPhiBackward (headPos T'' sa)).1.mapM (fun i => (headPos T'' sa)[i]?)
      = some ((sortIndices (headPos T'' sa)).map (fun i => (headPos T'' sa).getD i 0)) := by
    refine mapM_some (fun k hk => ?_)
    have : k < (headPos T'' sa).length := List.mem_range.1 ((sortIndices_perm _).mem_iff.1 hk)
    rw [List.getD_eq_getElem?_getD, List.getElem?_eq_getElem this]; rfl
  set M := (sortIndices (headPos T'' sa)).map (fun i => (headPos T'' sa).getD i 0) with hM
  have hMs : M.Pairwise (· < ·) := by
    rw [hM, List.pairwise_map]; exact sortIndices_strict (headPos_nodup hc.isSA)
  have hMm : ∀ q, q ∈ M ↔ HeadMark T'' sa q := by
    intro q
    rw [← mem_headPos, hM]
    have := ((sortIndices_perm (headPos T'' sa)).map (fun i => (headPos T'' sa).getD i 0)).mem_iff (a := q)
    rw [map_getD_range] at this
    exact this
  have hSs : (sortBy (fun x => x) (subPos T'' sa K)).Pairwise (fun a b => a < b) :=
    sortBy_strict (by simpa using subPos_nodup hn' hc.isSA ok.nodup ok.lt)
  have hSm : ∀ q, q ∈ sortBy (fun x => x) (subPos T'' sa K) ↔ q ∈ subPos T'' sa K := fun q => (sortBy_perm _ _).mem_iff
  have hSl : (sortBy (fun x => x) (subPos T'' sa K)).length = K.length := by
    rw [(sortBy_perm _ _).length_eq]; simp [subPos]
  have hsubM : ∀ x ∈ sortBy (fun x => x) (subPos T'' sa K), x ∈ M := fun x hx => (hMm x).2 (subPos_sub hn' x ((hSm x).1 hx))
  have hMne : M ≠ [] := by
    have : M.length = nrun T'' sa := by rw [hM, List.length_map, sortIndices_length, headPos_length]
    rw [← List.length_pos_iff, this]; exact nrun_pos hn'
  have hhead := head_of_min hMs hSs hsubM hMne (fun q hq => by
    obtain ⟨x, hx, hxq⟩ := ok.first q ((hMm q).1 hq); exact ⟨x, (hSm x).2 hx, hxq⟩)
  have hlast := last_of_max hMs hSs hsubM hMne (fun q hq => by
    obtain ⟨x, hx, hxq⟩ := ok.last q ((hMm q).1 hq); exact ⟨x, (hSm x).2 hx, hxq⟩)
  have hSne : sortBy (fun x => x) (subPos T'' sa K) ≠ [] := by
    rw [← List.length_pos_iff, (sortBy_perm _ _).length_eq]; exact hlen
  obtain ⟨V, v1, v2, v3, v4⟩ := submarksValidity_spec hMs (sublist_of_subset hSs hMs hsubM) hSne hhead hlast
  have v5 := submarksValidity_tight hMs (sublist_of_subset hSs hMs hsubM) hhead v1
  have hareas : V.mapM (fun q => csub q.2.2 q.2.1) = some (V.map (fun q => q.2.2 - q.2.1)) :=
    mapM_some (fun q hq => by rw [csub, if_pos]; have := (v3 q hq).2.2.1; omega)
  have hbits : bitVectorFromInts (V.map (·.1)) (subPos T'' sa K).length true
      = some ((List.range K.length).map (fun i => if i ∈ V.map (·.1) then false else true)) := by
    unfold bitVectorFromInts assertC
    rw [if_pos]
    · simp [subPos]
    · rw [List.all_eq_true]
      intro x hx
      obtain ⟨q, hq, rfl⟩ := List.mem_map.1 hx
      have := (v3 q hq).1
      rw [hSl] at this
      simp [subPos]; omega
  refine ⟨{ sr := sr, validMarks := (List.range K.length).map (fun i => if i ∈ V.map (·.1) then false else true), validAreas := V.map (fun q => q.2.2 - q.2.1) },
    T'', K, V, ?_, ⟨ok, rfl, ⟨0, by omega, rfl⟩, v2, ?_, ?_⟩, hs, hc, hidx, v1, rfl⟩
  · unfold build
    simp only [hsr, hb, Option.bind_eq_bind, Option.bind_some, bok.firstTextPos, bok.lastTextPos, hidx, SrIndex.submarks_eq hn',
      hmarks, v1, hareas, hbits]
    rfl
  · intro q hq
    obtain ⟨-, g2, g3, g4⟩ := v3 q hq
    exact ⟨g2, g3, fun m hm => g4 m ((hMm m).2 hm), (hMm _).1 (v5 q hq).1, fun hc => (v5 q hq).2 ((hSm _).2 hc)⟩
  · intro j x hj hq m hm hx
    exact v4 j x hj hq m ((hMm m).2 hm) hx

/-- construction establishes the invariant over the compacted text -/
theorem build_ok (hT : IsText T) (hsa : IsSA T sa) (s : Nat) :
    ∃ I T' K V, SrIndexValid.build T sa s = some I ∧ I.OK T' sa K V ∧ I.sr.s = s ∧ Compact T sa I.sr.base.alphabet T' := by
  obtain ⟨I, T', K, V, h1, h2, h3, h4, -⟩ := build_ok' hT hsa s
  exact ⟨I, T', K, V, h1, h2, h3, h4⟩

end SrIndexValid
end
end Sri
