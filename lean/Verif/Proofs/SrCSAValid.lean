import Verif.Proofs.SrCSABuild
import Verif.Proofs.SrValid
/-! # Validity marks and areas of the SrCSA family -/
namespace Sri
set_option autoImplicit false

theorem skipMarks_map {f : Nat → Nat} {t : Nat} : ∀ {ms : List Nat}, (∀ m ∈ ms, f m = f t → m = t) →
    skipMarks (f t) (ms.map f) = (skipMarks t ms).map (List.map f) := by
  intro ms
  induction ms with
  | nil => intro _; rfl
  | cons m ms ih =>
    intro h
    rw [List.map_cons, skipMarks, skipMarks]
    by_cases he : m = t
    · subst he; simp
    · rw [if_pos he, if_pos (fun hc => he (h m (by simp) hc)), ih (fun m hm => h m (by simp [hm]))]

theorem skipMarks_sub {t : Nat} : ∀ {ms r : List Nat}, skipMarks t ms = some r → ∀ x ∈ r, x ∈ ms := by
  intro ms
  induction ms with
  | nil => intro r h; cases h
  | cons m ms ih =>
    intro r h x hx
    rw [skipMarks] at h
    by_cases he : m = t
    · rw [if_neg (by simpa using he), Option.some_inj] at h
      subst h; simp [hx]
    · rw [if_pos he] at h
      simp [ih h x hx]

theorem submarksLoop_map {f : Nat → Nat} : ∀ (subs : List Nat) (i sub : Nat) (marks : List Nat),
    (∀ m ∈ marks, ∀ t ∈ subs, f m = f t → m = t) →
    submarksLoop i (f sub) (marks.map f) (subs.map f) = (submarksLoop i sub marks subs).map (List.map (fun q => (q.1, f q.2.1, f q.2.2))) := by
  intro subs
  induction subs with
  | nil => intro i sub marks _; simp [submarksLoop]
  | cons t subs ih =>
    intro i sub marks h
    cases marks with
    | nil => simp [submarksLoop]
    | cons m marks =>
      rw [List.map_cons, List.map_cons, submarksLoop, submarksLoop]
      by_cases he : m = t
      · subst he
        simp only [ne_eq, not_true_eq_false, if_false]
        exact ih _ _ _ (fun m hm t ht => h m (by simp [hm]) t (by simp [ht]))
      · rw [if_pos he, if_pos (fun hc => he (h m (by simp) t (by simp) hc)), skipMarks_map (fun m hm => h m (by simp [hm]) t (by simp))]
        cases hs : skipMarks t marks with
        | none => rfl
        | some r =>
          simp only [Option.map_some, Option.bind_eq_bind, Option.bind_some,
            ih (i+1) t r (fun m hm t ht => h m (by simp [skipMarks_sub hs m hm]) t (by simp [ht]))]
          cases submarksLoop (i+1) t r subs <;> rfl

theorem submarksValidity_map {f : Nat → Nat} {marks subs : List Nat} (h : ∀ m ∈ marks, ∀ t ∈ subs, f m = f t → m = t) :
    computeSubmarksValidity (marks.map f) (subs.map f) =
      (computeSubmarksValidity marks subs).map (List.map (fun q => (q.1, f q.2.1, f q.2.2))) := by
  cases marks with
  | nil => rfl
  | cons m marks =>
    cases subs with
    | nil => rfl
    | cons t subs =>
      simp only [List.map_cons, computeSubmarksValidity]
      exact submarksLoop_map _ _ _ _ (fun m hm t ht => h m (by simp [hm]) t (by simp [ht]))

theorem reflect_reverse {B : Nat} {l : List Nat} (h : ∀ x ∈ l, x ≤ B) : (l.reverse.map (B - ·)).map (B - ·) = l.reverse := by
  rw [List.map_map]
  conv_rhs => rw [← List.map_id l.reverse]
  refine List.map_congr_left ?_
  intro x hx
  have := h x (by simpa using hx)
  change B - (B - x) = x
  omega

theorem reflect_sorted {B : Nat} {l : List Nat} (h : ∀ x ∈ l, x ≤ B) (hs : l.Pairwise (· < ·)) :
    (l.reverse.map (B - ·)).Pairwise (· < ·) := by
  rw [List.pairwise_map, List.pairwise_reverse]
  refine List.Pairwise.imp_of_mem ?_ hs
  intro a b ha hb hab
  have := h a ha
  have := h b hb
  omega

/-- the validity information over strictly increasing marks whose ends are kept -/
theorem validity_spec {M sub : List Nat} (hM : M.Pairwise (· < ·)) (hne : M ≠ []) (hnd : sub.Nodup) (hsub : ∀ x ∈ sub, x ∈ M)
    (hf : ∀ m ∈ M, ∃ x, x ∈ sub ∧ x ≤ m) (hl : ∀ m ∈ M, ∃ x, x ∈ sub ∧ m ≤ x) :
    ∃ V : List (Nat × Nat), SrCSAValid.validity M sub =
        some ((List.range sub.length).map (fun i => if i ∈ V.map (·.1) then false else true), V.map (·.2)) ∧
      V.Pairwise (fun a b => a.1 < b.1) ∧
      (∀ q ∈ V, ∃ x, (sortBy (fun x => x) sub)[q.1]? = some x ∧ (∀ m ∈ M, m < x → m + q.2 ≤ x) ∧
        ∃ m ∈ M, m ∉ sub ∧ m < x ∧ x = m + q.2) ∧
      (∀ j x, (sortBy (fun x => x) sub)[j]? = some x → (∀ q ∈ V, q.1 ≠ j) → ∀ m ∈ M, m < x →
        ∃ j' y, j = j' + 1 ∧ (sortBy (fun x => x) sub)[j']? = some y ∧ m ≤ y) := by
  have hSs : (sortBy (fun x => x) sub).Pairwise (fun a b => a < b) := sortBy_strict (by simpa using hnd)
  have hSm : ∀ x, x ∈ sortBy (fun x => x) sub ↔ x ∈ sub := fun x => (sortBy_perm _ _).mem_iff
  have hSl : (sortBy (fun x => x) sub).length = sub.length := (sortBy_perm _ _).length_eq
  obtain ⟨B, hB⟩ := exists_upper M
  generalize hS : sortBy (fun x => x) sub = S at *
  have hSB : ∀ x ∈ S, x ≤ B := fun x hx => hB x (hsub x ((hSm x).1 hx))
  have hMs := reflect_sorted hB hM
  have hSs' := reflect_sorted hSB hSs
  obtain ⟨M', hM'⟩ : ∃ M', M' = M.reverse.map (B - ·) := ⟨_, rfl⟩
  obtain ⟨S', hS'⟩ : ∃ S', S' = S.reverse.map (B - ·) := ⟨_, rfl⟩
  rw [← hM'] at hMs
  rw [← hS'] at hSs'
  have hM'm : ∀ y, y ∈ M' ↔ ∃ m ∈ M, B - m = y := fun y => by rw [hM']; simp
  have hS'm : ∀ y, y ∈ S' ↔ ∃ m ∈ S, B - m = y := fun y => by rw [hS']; simp
  have hne' : M' ≠ [] := by rw [hM']; simpa using hne
  have hS'l : S'.length = sub.length := by rw [hS']; simp [hSl]
  have hss : ∀ x ∈ S', x ∈ M' := by
    intro x hx
    obtain ⟨m, hm, he⟩ := (hS'm x).1 hx
    exact (hM'm x).2 ⟨m, hsub m ((hSm m).1 hm), he⟩
  have hhead := head_of_min hMs hSs' hss hne' (by
    intro q hq
    obtain ⟨m, hm, rfl⟩ := (hM'm q).1 hq
    obtain ⟨x, hx, hxm⟩ := hl m hm
    exact ⟨B - x, (hS'm _).2 ⟨x, (hSm x).2 hx, rfl⟩, by omega⟩)
  have hlast := last_of_max hMs hSs' hss hne' (by
    intro q hq
    obtain ⟨m, hm, rfl⟩ := (hM'm q).1 hq
    obtain ⟨x, hx, hxm⟩ := hf m hm
    exact ⟨B - x, (hS'm _).2 ⟨x, (hSm x).2 hx, rfl⟩, by omega⟩)
  have hSne : S' ≠ [] := by
    intro hc
    rw [hc] at hhead
    cases hq : M' with
    | nil => exact hne' hq
    | cons a l => rw [hq] at hhead; simp at hhead
  obtain ⟨V, v1, v2, v3, v4⟩ := submarksValidity_spec hMs (sublist_of_subset hSs' hMs hss) hSne hhead hlast
  have v5 := submarksValidity_tight hMs (sublist_of_subset hSs' hMs hss) hhead v1
  have hcomp : computeSubmarksValidity M.reverse S.reverse = some (V.map (fun q => (q.1, B - q.2.1, B - q.2.2))) := by
    rw [← reflect_reverse hB, ← reflect_reverse hSB, ← hM', ← hS', submarksValidity_map, v1]; rfl
    intro m hm t ht he
    obtain ⟨m0, hm0, rfl⟩ := (hM'm m).1 hm
    obtain ⟨t0, ht0, rfl⟩ := (hS'm t).1 ht
    have := hB _ hm0
    have := hSB _ ht0
    omega
  -- places in the two orders
  have hget : ∀ i a, S'[i]? = some a → ∃ x, S[sub.length - i - 1]? = some x ∧ x ≤ B ∧ a = B - x := by
    intro i a ha
    rw [hS', List.getElem?_map] at ha
    have hi : i < S.length := by
      by_contra hc
      rw [List.getElem?_eq_none (by simp; omega)] at ha
      cases ha
    rw [List.getElem?_reverse hi, show S.length - 1 - i = sub.length - i - 1 by omega] at ha
    obtain ⟨x, hx, rfl⟩ := Option.map_eq_some_iff.1 ha
    exact ⟨x, hx, hSB x (List.mem_of_getElem? hx), rfl⟩
  have hput : ∀ j x, S[j]? = some x → S'[sub.length - j - 1]? = some (B - x) := by
    intro j x hx
    have hj := (List.getElem?_eq_some_iff.1 hx).1
    rw [hS', List.getElem?_map, List.getElem?_reverse (by omega), show S.length - 1 - (sub.length - j - 1) = j by omega, hx]; rfl
  have hq : ((V.map (fun q => (q.1, B - q.2.1, B - q.2.2))).reverse).mapM (fun (q : Nat × Nat × Nat) => do
      let i ← csub sub.length q.1
      let i ← csub i 1
      let a ← csub q.2.1 q.2.2
      return (i, a)) = some ((V.reverse).map (fun q => (sub.length - q.1 - 1, (B - q.2.1) - (B - q.2.2)))) := by
    rw [← List.map_reverse, PartOK.mapM_some (g := fun q => (sub.length - q.1 - 1, q.2.1 - q.2.2)), List.map_map]
    · rfl
    · intro q hq
      obtain ⟨e, he, rfl⟩ := List.mem_map.1 hq
      obtain ⟨g1, g2, g3, -⟩ := v3 e (by simpa using he)
      dsimp only
      simp only [csub, show e.1 ≤ sub.length by omega, if_true, Option.bind_eq_bind, Option.bind_some,
        show 1 ≤ sub.length - e.1 by omega, show B - e.2.2 ≤ B - e.2.1 by omega]
      rfl
  set W := (V.reverse).map (fun q => (sub.length - q.1 - 1, (B - q.2.1) - (B - q.2.2))) with hW
  have hWm : ∀ q, q ∈ W ↔ ∃ e ∈ V, (sub.length - e.1 - 1, (B - e.2.1) - (B - e.2.2)) = q := fun q => by rw [hW]; simp
  refine ⟨W, ?_, ?_, ?_, ?_⟩
  · unfold SrCSAValid.validity
    rw [hS, hcomp]
    simp only [Option.bind_eq_bind, Option.bind_some] at hq ⊢
    rw [hq]
    simp only [Option.bind_some]
    have hbits : bitVectorFromInts (W.map (·.1)) sub.length true =
        some ((List.range sub.length).map (fun i => if i ∈ W.map (·.1) then false else true)) := by
      unfold bitVectorFromInts assertC
      rw [if_pos]
      · rfl
      · rw [List.all_eq_true]
        intro x hx
        obtain ⟨q, hq, rfl⟩ := List.mem_map.1 hx
        obtain ⟨e, he, rfl⟩ := (hWm q).1 hq
        have := (v3 e he).1
        simp; omega
    rw [hbits]; rfl
  · rw [hW, List.pairwise_map, List.pairwise_reverse]
    refine List.Pairwise.imp_of_mem ?_ v2
    intro a b ha hb hab
    have := (v3 a ha).1
    have := (v3 b hb).1
    dsimp only; omega
  · intro q hq
    obtain ⟨e, he, rfl⟩ := (hWm q).1 hq
    obtain ⟨g1, g2, g3, g4⟩ := v3 e he
    obtain ⟨x, hx, hxB, hxe⟩ := hget _ _ g2
    refine ⟨x, hx, ?_, ?_⟩
    · intro m hm hmx
      have := g4 (B - m) ((hM'm _).2 ⟨m, hm, rfl⟩) (by omega)
      have := hB m hm
      dsimp only; omega
    · obtain ⟨h1, h2⟩ := v5 e he
      obtain ⟨m, hm, hme⟩ := (hM'm _).1 h1
      have := hB m hm
      exact ⟨m, hm, fun hc => h2 ((hS'm _).2 ⟨m, (hSm m).2 hc, hme⟩), by omega, by dsimp only; omega⟩
  · intro j x hj hno m hm hmx
    have hjl := (List.getElem?_eq_some_iff.1 hj).1
    have hxB := hSB x (List.mem_of_getElem? hj)
    obtain ⟨y, hy, hym⟩ := v4 (sub.length - j - 1) (B - x) (hput j x hj) (by
      intro q hq hc
      have := (v3 q hq).1
      exact hno _ ((hWm _).2 ⟨q, hq, rfl⟩) (by dsimp only; omega)) (B - m) ((hM'm _).2 ⟨m, hm, rfl⟩) (by omega)
    have hyl := (List.getElem?_eq_some_iff.1 hy).1
    obtain ⟨z, hz, hzB, hze⟩ := hget _ _ hy
    have := hB m hm
    refine ⟨j - 1, z, by omega, ?_, by omega⟩
    rw [show j - 1 = sub.length - (sub.length - j - 1 + 1) - 1 by omega]; exact hz

theorem circSucc_of_gap {M M' : Nat → Prop} {v p : Nat} (hs : ∀ q, M' q → M q) (hp : CircSucc M' v p)
    (hfirst : ∀ q, M q → ∃ x, M' x ∧ x ≤ q) (hlast : ∀ q, M q → ∃ x, M' x ∧ q ≤ x)
    (hgap : v ≤ p → ∀ q, M q → q < p → q < v) : CircSucc M v p := by
  refine ⟨hs p hp.1, ?_, ?_⟩
  · rintro ⟨q, hq, hqv⟩
    obtain ⟨x, hx, hxq⟩ := hlast q hq
    have hpv := (hp.2.1 ⟨x, hx, by omega⟩).1
    refine ⟨hpv, fun q hq hqv => ?_⟩
    by_contra hc
    have := hgap hpv q hq (by omega); omega
  · intro hall q hq
    obtain ⟨x, hx, hqx⟩ := hfirst q hq
    have := hp.2.2 (fun y hy => hall y (hs y hy)) x hx
    omega

theorem strict_index_on {α : Type} {key : α → Nat} {l : List α} (h : l.Pairwise (fun a b => key a < key b)) {k : α} (hk : k ∈ l) :
    l[l.countP (fun a => decide (key a < key k))]? = some k := by
  induction l with
  | nil => simp at hk
  | cons x l ih =>
    rw [List.pairwise_cons] at h
    rcases List.mem_cons.1 hk with rfl | hk
    · have h0 : (k :: l).countP (fun a => decide (key a < key k)) = 0 := by
        rw [List.countP_eq_zero]
        intro a ha
        rcases List.mem_cons.1 ha with rfl | ha
        · simp
        · have := h.1 a ha; simp; omega
      rw [h0]; rfl
    · have h1 := h.1 k hk
      rw [List.countP_cons_of_pos (by simpa using h1), List.getElem?_cons_succ]
      exact ih h.2 hk

/-- the area of an untrusted mark -/
theorem area_get {V : List (Nat × Nat)} {m : Nat} (hs : V.Pairwise (fun a b => a.1 < b.1)) {q : Nat × Nat} (hq : q ∈ V) (hlt : q.1 < m) :
    (SrIndexValid.rank0 ((List.range m).map (fun i => if i ∈ V.map (·.1) then false else true)) q.1).bind (fun k => (V.map (·.2))[k]?) =
      some q.2 := by
  have hnd : (V.map (·.1)).Nodup := by
    rw [List.Nodup, List.pairwise_map]
    exact hs.imp (fun h => by omega)
  have hcnt : ((((List.range m).map (fun i => if i ∈ V.map (·.1) then false else true)).take q.1).count false) =
      V.countP (fun a => decide (a.1 < q.1)) := by
    have h2 := count_bits hnd (n := m) (p := q.1) (by omega)
    rw [List.countP_map] at h2
    refine Eq.trans ?_ h2
    rw [← List.map_take, ← List.map_take]
    rw [List.count_eq_countP, List.count_eq_countP, List.countP_map, List.countP_map]
    apply List.countP_congr
    intro i _
    by_cases hi : i ∈ V.map (·.1) <;> simp [hi]
  rw [SrIndexValid.rank0, if_pos (by simp; omega), Option.bind_some, hcnt, List.getElem?_map, strict_index_on (key := Prod.fst) hs hq]; rfl

namespace SrCSAValid
variable {T sa T' K : List Nat} {I : SrCSAValid} {V : List (Nat × Nat)}

/-- what a built index with validity information holds -/
structure OK (I : SrCSAValid) (T sa K : List Nat) (V : List (Nat × Nat)) : Prop where
  csa : I.csa.OK T sa K
  marks : I.validMarks = (List.range K.length).map (fun i => if i ∈ V.map (·.1) then false else true)
  areas : I.validAreas = V.map (·.2)
  sorted : V.Pairwise (fun a b => a.1 < b.1)
  entry : ∀ q ∈ V, ∃ x, (sortBy (fun x => x) (K.map (mkOf T sa)))[q.1]? = some x ∧ (∀ m, TailMark T sa m → m < x → m + q.2 ≤ x) ∧
    ∃ m, TailMark T sa m ∧ m ∉ K.map (mkOf T sa) ∧ m < x ∧ x = m + q.2
  gap : ∀ j x, (sortBy (fun x => x) (K.map (mkOf T sa)))[j]? = some x → (∀ q ∈ V, q.1 ≠ j) → ∀ m, TailMark T sa m → m < x →
    ∃ j' y, j = j' + 1 ∧ (sortBy (fun x => x) (K.map (mkOf T sa)))[j']? = some y ∧ m ≤ y

/-- the successor among the kept marks is the true one when its validity bit is set, or when the distance is inside the valid area -/
theorem OK.circ (h : I.OK T sa K V) {v p o : Nat} (ho : (sortBy (fun x => x) (K.map (mkOf T sa)))[o]? = some p)
    (hp : CircSucc (· ∈ K.map (mkOf T sa)) v p)
    (hc : (∀ q ∈ V, q.1 ≠ o) ∨ ∃ q ∈ V, q.1 = o ∧ p - v < q.2) :
    CircSucc (TailMark T sa) v p := by
  refine circSucc_of_gap (fun q hq => h.csa.sub_mark hq) hp (fun q hq => h.csa.first q hq) (fun q hq => h.csa.last q hq) ?_
  intro hpv q hq hpq
  rcases hc with hc | ⟨e, he, heo, hea⟩
  · obtain ⟨j', y, hj, hy, hyq⟩ := h.gap o p ho hc q hq hpq
    have hym : y ∈ K.map (mkOf T sa) := (sortBy_perm _ _).mem_iff.1 (List.mem_of_getElem? hy)
    by_contra hcon
    have h1 := (hp.2.1 ⟨y, hym, by omega⟩).2 y hym (by omega)
    have hs : (sortBy (fun x => x) (K.map (mkOf T sa))).Pairwise (fun a b => a < b) := sortBy_strict (by rw [show (fun x : Nat => x) = id from rfl, List.map_id]; exact h.csa.sub_nodup)
    obtain ⟨l1, rfl⟩ := List.getElem?_eq_some_iff.1 ho
    obtain ⟨l2, rfl⟩ := List.getElem?_eq_some_iff.1 hy
    have := List.pairwise_iff_getElem.1 hs j' o l2 l1 (by omega)
    omega
  · obtain ⟨x, g1, g2, -⟩ := h.entry e he
    rw [heo, ho, Option.some_inj] at g1
    have := g2 q hq (by omega)
    omega

theorem OK.valid_bit (h : I.OK T sa K V) {o : Nat} (ho : o < K.length) :
    I.validMarks[o]? = some (if o ∈ V.map (·.1) then false else true) := by
  rw [h.marks, List.getElem?_map, List.getElem?_range ho]; rfl

/-- both phi functors: the value, and the reason for the flag -/
theorem OK.phi_spec (h : I.OK T sa K V) {i : Nat} (hi : i < T.length) :
    ∃ v okm oka, I.phiMark (saAt sa i) = some (v, okm) ∧ I.phiArea (saAt sa i) = some (v, oka) ∧
      (i + 1 < T.length → okm = true → v = saAt sa (i+1)) ∧ (i + 1 < T.length → oka = true → v = saAt sa (i+1)) ∧
      (i + 1 < T.length → (∀ e, e < I.csa.s → ¬ keptHd T sa K (psiIt T sa e (i+1))) → v = saAt sa (i+1)) ∧
      (okm = true → oka = true) := by
  have hn := h.csa.nav.text.pos
  obtain ⟨o, p, j, y, e1, e2, e3, e4, e5, e6, e7, e8, e9, e10⟩ := h.csa.succ hi
  have hbit := h.valid_bit e5
  set v := saAt sa i with hv
  have hm : I.phiMark v = some ((y + T.length - (p - v)) % T.length, if o ∈ V.map (·.1) then false else true) := by
    unfold phiMark phiForward
    simp only [e1, Option.bind_eq_bind, Option.bind_some, csub, e7, if_true]
    unfold getSampleForPhi validatorDefault
    simp only [e2, hbit, Option.bind_eq_bind, Option.bind_some, e3, h.csa.nav.n, Option.pure_def, show p - v ≤ y + T.length by omega,
      if_true, cmod, show T.length ≠ 0 by omega, if_false]
  by_cases hmem : o ∈ V.map (·.1)
  · obtain ⟨q, hq, hqo⟩ := List.mem_map.1 hmem
    subst hqo
    have har := area_get h.sorted hq e5
    rw [← h.marks, ← h.areas] at har
    have ha : I.phiArea v = some ((y + T.length - (p - v)) % T.length, !decide (q.2 ≤ p - v)) := by
      unfold phiArea phiForward
      simp only [e1, Option.bind_eq_bind, Option.bind_some, csub, e7, if_true]
      unfold getSampleForPhi validatorArea
      rw [if_pos hmem] at hbit
      cases hr0 : SrIndexValid.rank0 I.validMarks q.1 with
      | none => rw [hr0] at har; cases har
      | some r0 =>
        rw [hr0, Option.bind_some] at har
        simp only [e2, hbit, Option.bind_eq_bind, Option.bind_some, e3, har, h.csa.nav.n, Option.pure_def, show p - v ≤ y + T.length by omega,
          if_true, cmod, show T.length ≠ 0 by omega, if_false, Bool.false_eq_true]
    refine ⟨_, _, _, hm, ha, ?_, ?_, fun h1 h2 => e9 (e10 h1 h2) h1, ?_⟩
    · rw [if_pos hmem]; intro _ hc; cases hc
    · intro h1 hc
      simp only [Bool.not_eq_eq_eq_not, Bool.not_true, decide_eq_false_iff_not, Nat.not_le] at hc
      exact e9 (h.circ e4 e6 (Or.inr ⟨q, hq, rfl, hc⟩)) h1
    · rw [if_pos hmem]; intro hc; cases hc
  · have ha : I.phiArea v = some ((y + T.length - (p - v)) % T.length, true) := by
      unfold phiArea phiForward
      simp only [e1, Option.bind_eq_bind, Option.bind_some, csub, e7, if_true]
      unfold getSampleForPhi validatorArea
      rw [if_neg hmem] at hbit
      simp only [e2, hbit, Option.bind_eq_bind, Option.bind_some, e3, h.csa.nav.n, Option.pure_def, show p - v ≤ y + T.length by omega,
        if_true, cmod, show T.length ≠ 0 by omega, if_false]
    have hok := e9 (h.circ e4 e6 (Or.inl (fun q hq hc => hmem (List.mem_map.2 ⟨q, hq, hc⟩))))
    exact ⟨_, _, _, hm, ha, fun h1 _ => hok h1, fun h1 _ => hok h1, fun h1 _ => hok h1, fun _ => rfl⟩

theorem OK.phiOK_mark (h : I.OK T sa K V) : PhiOKF T sa I.csa.s (keptHd T sa K) I.phiMark := fun i hi => by
  obtain ⟨v, okm, oka, e1, e2, e3, e4, e5, -⟩ := h.phi_spec hi
  exact ⟨v, okm, e1, e5⟩

theorem OK.phiOK_area (h : I.OK T sa K V) : PhiOKF T sa I.csa.s (keptHd T sa K) I.phiArea := fun i hi => by
  obtain ⟨v, okm, oka, e1, e2, e3, e4, e5, -⟩ := h.phi_spec hi
  exact ⟨v, oka, e2, e5⟩

theorem OK.phiValid_mark (h : I.OK T sa K V) : PhiValidF T sa I.phiMark := fun i v hi hv => by
  obtain ⟨w, okm, oka, e1, e2, e3, e4, e5, -⟩ := h.phi_spec (i := i) (by omega)
  rw [hv, Option.some_inj, Prod.mk.injEq] at e1
  obtain ⟨rfl, rfl⟩ := e1
  exact e3 hi rfl

theorem OK.phiValid_area (h : I.OK T sa K V) : PhiValidF T sa I.phiArea := fun i v hi hv => by
  obtain ⟨w, okm, oka, e1, e2, e3, e4, e5, -⟩ := h.phi_spec (i := i) (by omega)
  rw [hv, Option.some_inj, Prod.mk.injEq] at e2
  obtain ⟨rfl, rfl⟩ := e2
  exact e4 hi rfl

/-- the validity information of an index whose kept marks are `sub` -/
theorem validity_ok {csa : SrCSA} {M sub : List Nat} (hcsa : csa.OK T sa K) (hM : M.Pairwise (· < ·)) (hMm : ∀ q, q ∈ M ↔ TailMark T sa q)
    (hsub : sub = K.map (mkOf T sa)) :
    ∃ bv ar V, validity M sub = some (bv, ar) ∧ OK { csa := csa, validMarks := bv, validAreas := ar } T sa K V := by
  have hne : M ≠ [] := by
    obtain ⟨q, hq, -⟩ := hcsa.zero
    intro hc
    have := (hMm _).2 (mkOf_tailMark hcsa.nav.text hcsa.nav.isSA (hcsa.lt q hq))
    rw [hc] at this; simp at this
  subst hsub
  obtain ⟨V, v1, v2, v3, v4⟩ := validity_spec hM hne hcsa.sub_nodup (fun x hx => (hMm x).2 (hcsa.sub_mark hx))
    (fun m hm => hcsa.first m ((hMm m).1 hm)) (fun m hm => hcsa.last m ((hMm m).1 hm))
  rw [List.length_map] at v1
  refine ⟨_, _, V, v1, hcsa, rfl, rfl, v2, ?_, ?_⟩
  · intro q hq
    obtain ⟨x, h1, h2, m, h3, h4, h5, h6⟩ := v3 q hq
    exact ⟨x, h1, fun m hm => h2 m ((hMm m).2 hm), m, (hMm m).1 h3, h4, h5, h6⟩
  · intro j x hj hq m hm
    exact v4 j x hj hq m ((hMm m).2 hm)

/-- the sorted marks of the BWT-run construction -/
theorem commons_marks {s : Nat} {k : SrCSA.Commons} (h : SrCSA.CommonsOK T sa T' s k) :
    ∃ M, k.sortedMarksIdx.mapM (fun i => k.base.runs.lastTextPos[i]?) = some M ∧ M.Pairwise (· < ·) ∧ ∀ q, q ∈ M ↔ TailMark T' sa q := by
  have hsa := h.base.compact.isSA
  refine ⟨(sortIndices (tailPos T' sa)).map (fun i => (tailPos T' sa).getD i 0), ?_, ?_, ?_⟩
  · rw [h.marksIdx, h.base.lastTextPos]
    refine mapM_some (fun k hk => ?_)
    have : k < (tailPos T' sa).length := List.mem_range.1 ((sortIndices_perm _).mem_iff.1 hk)
    rw [List.getD_eq_getElem?_getD, List.getElem?_eq_getElem this]; rfl
  · rw [List.pairwise_map]; exact sortIndices_strict (tailPos_nodup hsa)
  · intro q
    rw [← mem_tailPos]
    have := ((sortIndices_perm (tailPos T' sa)).map (fun i => (tailPos T' sa).getD i 0)).mem_iff (a := q)
    rw [map_getD_range] at this
    exact this

theorem build_ok (hT : IsText T) (hsa : IsSA T sa) (hn : T.length < W64) (s : Nat) :
    ∃ I T' K V, build T sa s = some I ∧ I.OK T' sa K V ∧ I.csa.PosStore T' sa K ∧ I.csa.s = s ∧ Compact T sa I.csa.alphabet T' := by
  obtain ⟨k, T', hk, h⟩ := SrCSA.commons_ok hT hsa hn s
  obtain ⟨C, c1, c2, c3, c4, c5⟩ := SrCSA.build_of hk h
  obtain ⟨M, m1, m2, m3⟩ := commons_marks h
  obtain ⟨bv, ar, V, v1, v2⟩ := validity_ok c2 m2 m3 h.sub
  refine ⟨{ csa := C, validMarks := bv, validAreas := ar }, T', k.idx, V, ?_, v2, c3, c4, c5⟩
  unfold build
  simp only [c1, hk, Option.bind_eq_bind, Option.bind_some, m1, v1]
  rfl

theorem buildSlim_ok (hT : IsText T) (hsa : IsSA T sa) (hn : T.length < W64) (s : Nat) :
    ∃ I T' K V, buildSlim T sa s = some I ∧ I.OK T' sa K V ∧ I.csa.IdxStore T' sa K ∧ I.csa.s = s ∧ Compact T sa I.csa.alphabet T' := by
  obtain ⟨k, T', hk, h⟩ := SrCSA.commons_ok hT hsa hn s
  obtain ⟨C, c1, c2, c3, c4, c5⟩ := SrCSA.buildSlim_of hk h
  obtain ⟨M, m1, m2, m3⟩ := commons_marks h
  obtain ⟨bv, ar, V, v1, v2⟩ := validity_ok c2 m2 m3 h.sub
  refine ⟨{ csa := C, validMarks := bv, validAreas := ar }, T', k.idx, V, ?_, v2, c3, c4, c5⟩
  unfold buildSlim
  simp only [c1, hk, Option.bind_eq_bind, Option.bind_some, m1, v1]
  rfl

theorem buildPsi_ok (hT : IsText T) (hsa : IsSA T sa) (hn : T.length < W64) (s : Nat) :
    ∃ I T' K V, buildPsi T sa s = some I ∧ I.OK T' sa K V ∧ I.csa.IdxStore T' sa K ∧ I.csa.s = s ∧ Compact T sa I.csa.alphabet T' := by
  obtain ⟨k, T', K, hk, h1, h2, h3, h4, h5, h6⟩ := SrCSA.commonsPsi_ok hT hsa hn s
  have hperm := psiOrd_perm h4.text h4.isSA (RCSAPsi.sy_lt h4)
  have hp : k.tails.Perm (tailPos T' sa) := by rw [h6]; exact hperm.map _
  obtain ⟨bv, ar, V, v1, v2⟩ := validity_ok (M := sortBy (fun x => x) k.tails) h1
    (sortBy_strict (by simpa using hp.nodup_iff.2 (tailPos_nodup h4.isSA)))
    (fun q => by rw [(sortBy_perm _ _).mem_iff, hp.mem_iff, mem_tailPos]) h5
  refine ⟨{ csa := k.csa, validMarks := bv, validAreas := ar }, T', K, V, ?_, v2, h2, h3, h4⟩
  unfold buildPsi
  simp only [hk, Option.bind_eq_bind, Option.bind_some, v1]
  rfl

end SrCSAValid
end Sri
