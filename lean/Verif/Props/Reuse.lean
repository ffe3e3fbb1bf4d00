import Verif.Props.DefaultObject
/-! # C69: using an index object again -/
namespace Sri
set_option autoImplicit false

/-- an object that holds its items is not changed by load(config), whatever the cache holds -/
theorem loadCache_old {α : Type} {K : Codec α} {I : Object} (hI : I.Loaded) {S : Storage} {q : Queries} (hq : I.queries S = some q) (C : Cache) :
    I.loadCache K S C = some (I, S) := by
  unfold Object.queries at hq
  simp only [Option.bind_eq_bind, Option.bind_eq_some_iff] at hq
  obtain ⟨p, hp, -⟩ := hq
  rw [hI.keys] at hp
  have h := runAll_old (K := K) (collect_items hp).1 (collect_full hp) (.cache C)
  unfold accesses at h
  unfold Object.loadCache Object.loadInner
  simp only [h, Option.bind_eq_bind, Option.bind_some, Option.pure_def]
  rw [← hI.keys]

theorem base_writes {t t₀ : IndexType} (h : t.constructBase = some t₀) (b : BvKind) (p : Parts) :
    ∀ w ∈ writes t₀ b, w ∈ writes t b ∧ (∀ pre, w.key (keyOf t₀ pre) = w.key (keyOf t pre)) ∧
      itemOf b { p with validMarks := [], validAreas := [] } w = itemOf b p w := by
  intro w hw
  have h1 : ∀ w ∈ writes t₀ b, w ∈ writes t b ∧ w.slot ≠ .validMarks ∧ w.slot ≠ .validAreas := by
    cases t <;> cases h <;> cases b <;> decide
  obtain ⟨h2, h3, h4⟩ := h1 w hw
  refine ⟨h2, fun pre => ?_, ?_⟩
  · have : keyOf t₀ pre w.slot = keyOf t pre w.slot := by
      generalize w.slot = k at *
      cases t <;> cases h <;> cases k <;> first | exact absurd rfl h3 | exact absurd rfl h4 | rfl
    unfold Write.key
    rw [this]
  · obtain ⟨k, q, y⟩ := w
    cases k <;> first | exact absurd rfl h3 | exact absurd rfl h4 | rfl | (cases q <;> rfl)

/-- and neither does its base change, when it is loaded with the object's items -/
theorem loadCache_base {α : Type} {K : Codec α} {I : Object} (hI : I.Loaded) {S : Storage} {q : Queries} (hq : I.queries S = some q) {t₀ : IndexType}
    (ht : I.type.constructBase = some t₀) (C : Cache) : ∃ r, Object.loadCache K { I with type := t₀ } S C = some r := by
  unfold Object.queries at hq
  simp only [Option.bind_eq_bind, Option.bind_eq_some_iff] at hq
  obtain ⟨p, hp, -⟩ := hq
  rw [hI.keys] at hp
  have hwf := (collect_items hp).1
  have hfull := collect_full hp
  have hwf' : Parts.WF { p with validMarks := [], validAreas := [] } t₀ := by
    generalize I.type = t at *
    constructor
    · change p.nav.type = _
      rw [hwf.nav]; cases t <;> cases ht <;> rfl
    · change _ → p.samplesIdx = []
      intro h; cases t <;> cases ht <;> cases h
    · change _ → p.cumRuns = []
      intro h
      apply hwf.cum
      cases t <;> cases ht <;> first | rfl | cases h
    · intro _; rfl
    · intro _; rfl
  have hfull' : S.Full t₀ I.bv I.pre { p with validMarks := [], validAreas := [] } := by
    intro w hw
    obtain ⟨h1, h2, h3⟩ := base_writes ht I.bv p w hw
    rw [h2, h3]
    exact hfull w h1
  have h := runAll_old (K := K) hwf' hfull' (.cache C)
  unfold accesses at h
  refine ⟨({ I with type := t₀, keys := keyOf t₀ I.pre }, S), ?_⟩
  unfold Object.loadCache Object.loadInner
  simp only [h, Option.bind_eq_bind, Option.bind_some, Option.pure_def]

/-- `construct` of an object that holds items builds the items of the new text and leaves the object as it was -/
theorem construct_old {α : Type} {K : Codec α} {I : Object} (hI : I.Loaded) {S : Storage} {q : Queries} (hq : I.queries S = some q) (bytes : List Nat)
    {P P' : Process} (hP : constructIn bytes I.type I.bv I.rate P = some P')
    (hbase : ∀ t₀, I.type.constructBase = some t₀ → ∃ P₁, constructIn bytes t₀ I.bv I.rate P = some P₁) :
    I.construct K bytes S P = some (P', some (I, S)) := by
  unfold Object.construct
  cases ht : I.type.constructBase with
  | none =>
    dsimp only
    rw [hP]
    simp only [Option.bind_eq_bind, Option.bind_some, Option.pure_def, loadCache_old hI hq]
  | some t₀ =>
    obtain ⟨P₁, h1⟩ := hbase t₀ ht
    obtain ⟨r, h2⟩ := loadCache_base (K := K) hI hq ht P₁.cache
    have h3 : (runSteps bytes I.rate Steps.srCSAValid P₁).2 = some P' := by
      unfold constructIn at h1 hP
      rw [(program_base ht I.bv).1] at hP
      have := runSteps_append bytes I.rate (program t₀ I.bv) Steps.srCSAValid P (es := (runSteps bytes I.rate (program t₀ I.bv) P).1) (P' := P₁)
        (Prod.ext rfl h1)
      rw [this] at hP
      exact hP
    dsimp only
    simp only [h1, h2, h3, loadCache_old hI hq, Option.bind_eq_bind, Option.bind_some, Option.pure_def, ite_self]

/-- the object that `construct` leaves is the one it was given, loaded -/
theorem construct_object {α : Type} {K : Codec α} {bytes : List Nat} {I₀ I : Object} {S₀ S : Storage} {P P' : Process}
    (h : I₀.construct K bytes S₀ P = some (P', some (I, S))) : I.Loaded ∧ I.type = I₀.type ∧ I.bv = I₀.bv ∧ I.rate = I₀.rate := by
  have key : ∀ {J J' : Object} {S S' : Storage} {C : Cache}, J.loadCache K S C = some (J', S') →
      J'.Loaded ∧ J'.type = J.type ∧ J'.bv = J.bv ∧ J'.rate = J.rate := by
    intro J J' S S' C h
    refine ⟨loadCache_loaded h, ?_⟩
    rw [(loadCache_again h []).2]
    exact ⟨rfl, rfl, rfl⟩
  unfold Object.construct at h
  cases ht : I₀.type.constructBase with
  | none =>
    rw [ht] at h
    simp only [Option.bind_eq_bind, Option.bind_eq_some_iff, Option.pure_def, Option.some.injEq, Prod.mk.injEq] at h
    obtain ⟨P₁, -, rfl, h⟩ := h
    exact key h
  | some t₀ =>
    rw [ht] at h
    simp only [Option.bind_eq_bind, Option.bind_eq_some_iff, Option.pure_def] at h
    obtain ⟨P₁, -, h⟩ := h
    split at h
    · cases h
    · simp only [Option.bind_eq_some_iff, Option.some.injEq, Prod.mk.injEq] at h
      obtain ⟨P₂, -, rfl, ⟨I₁, S₁⟩, h1, h2⟩ := h
      obtain ⟨k1, k2, k3, k4⟩ := key h1
      split at h2
      · obtain ⟨l1, l2, l3, l4⟩ := key h2
        exact ⟨l1, l2.trans k2, l3.trans k3, l4.trans k4⟩
      · cases h2
        exact ⟨k1, k2, k3, k4⟩

/-! ## The property -/

/-- what `construct` of an object for a first text and then for a second one does: the files of the second are right, the object does not see them -/
theorem construct_twice {α : Type} (K : Codec α) (bytes₁ : List Nat) (h0 : ∀ c ∈ bytes₁, c ≠ 0) (hn : bytes₁.length + 1 < 2^64) (P : Process)
    (hP : CacheHistory bytes₁ CleanDisk (Process.fresh Disk.empty) P) (t : IndexType) (b : BvKind) (s : Nat) :
    ∃ P₁ I S q, (Object.fresh t b (if t.sampled then some s else none)).construct K bytes₁ [] P = some (P₁, some (I, S)) ∧
      I.queries S = some q ∧
      (∀ X, X ≠ [] → (∀ c ∈ X, c ∈ bytes₁) → ∃ i j l, q.count X = some (i, j) ∧ q.locate X = some l ∧ i ≤ j ∧
        j - i = (occurrences X bytes₁).length ∧ l.Perm (occurrences X bytes₁)) ∧
      (∀ C, I.loadCache K S C = some (I, S)) ∧
      ∀ bytes₂, (∀ c ∈ bytes₂, c ≠ 0) → bytes₂.length + 1 < 2^64 → ∀ P₂, CacheHistory bytes₂ CleanDisk (Process.fresh Disk.empty) P₂ →
        ∃ P₃ q₂, I.construct K bytes₂ S P₂ = some (P₃, some (I, S)) ∧ loadIn K t b s P₃ = some q₂ ∧ indexFromBytes t bytes₂ s = some q₂ := by
  obtain ⟨P₁, I, S, q, h1, -, -, h4, -, h5⟩ := c68_construct_partial K bytes₁ h0 hn P hP t b s
  obtain ⟨hL, hty, hbv, hrt⟩ := construct_object h1
  refine ⟨P₁, I, S, q, h1, h4, h5, loadCache_old hL h4, fun bytes₂ g0 gn P₂ hP₂ => ?_⟩
  rw [fresh_type] at hty
  rw [fresh_bv] at hbv
  have hrt' : I.rate = if t.sampled then s else 1 := by
    rw [hrt]
    cases t.sampled <;> rfl
  obtain ⟨P₃, q₃, g1, g2, g3, -⟩ := c34_resume_partial K bytes₂ g0 gn P₂ hP₂ t b (if t.sampled then s else 1)
  refine ⟨P₃, q₃, ?_, ?_, ?_⟩
  · refine construct_old hL h4 bytes₂ ?_ ?_
    · rw [hty, hbv, hrt']; exact g1
    · intro t₀ _
      obtain ⟨P₄, -, g4, -⟩ := c34_resume_partial K bytes₂ g0 gn P₂ hP₂ t₀ I.bv I.rate
      exact ⟨P₄, g4⟩
  · unfold loadIn at g2 ⊢
    cases ht : t.sampled with
    | true => rw [ht] at g2; exact g2
    | false => rw [ht] at g2; exact g2
  · rw [← g3]
    unfold indexFromBytes
    cases ht : t.sampled with
    | true => rfl
    | false => cases t <;> first | exact absurd ht (by decide) | rfl

/-- **C69** (partial), the same text: whatever else was constructed for it in the directory, constructing an index object again for the text it was
    constructed for succeeds, and so does load(config), and count and locate are exact as before. Missing: other texts, see
    `c69_other_text_violation`. -/
theorem c69_same_text_partial {α : Type} (K : Codec α) (bytes : List Nat) (h0 : ∀ c ∈ bytes, c ≠ 0) (hn : bytes.length + 1 < 2^64) (P : Process)
    (hP : CacheHistory bytes CleanDisk (Process.fresh Disk.empty) P) (t : IndexType) (b : BvKind) (s : Nat) :
    ∃ P₁ I S, (Object.fresh t b (if t.sampled then some s else none)).construct K bytes [] P = some (P₁, some (I, S)) ∧
      ∀ P₂, CacheHistory bytes CleanDisk (Process.fresh Disk.empty) P₂ → ∃ P₃ I' S' I'' S'' q,
        I.construct K bytes S P₂ = some (P₃, some (I', S')) ∧ I'.loadCache K S' P₃.cache = some (I'', S'') ∧ I'.queries S' = some q ∧
        I''.queries S'' = some q ∧
        ∀ X, X ≠ [] → (∀ c ∈ X, c ∈ bytes) → ∃ i j l, q.count X = some (i, j) ∧ q.locate X = some l ∧ i ≤ j ∧
          j - i = (occurrences X bytes).length ∧ l.Perm (occurrences X bytes) := by
  obtain ⟨P₁, I, S, q, h1, h2, h3, h4, h5⟩ := construct_twice K bytes h0 hn P hP t b s
  refine ⟨P₁, I, S, h1, fun P₂ hP₂ => ?_⟩
  obtain ⟨P₃, -, h6, -⟩ := h5 bytes h0 hn P₂ hP₂
  exact ⟨P₃, I, S, I, S, q, h6, h4 _, h2, h2, h3⟩

/-- **C69**, violation: after `construct` for one text, `construct` of the same object for any other text, in any clean state of its directory, builds
    the right files for it, as a new object shows, but the object itself still answers for the first text: wrongly for each pattern that does
    not occur equally often in both. load(config) does not change the object either. -/
theorem c69_other_text_violation {α : Type} (K : Codec α) (bytes₁ : List Nat) (h0 : ∀ c ∈ bytes₁, c ≠ 0) (hn : bytes₁.length + 1 < 2^64) (P : Process)
    (hP : CacheHistory bytes₁ CleanDisk (Process.fresh Disk.empty) P) (t : IndexType) (b : BvKind) (s : Nat) :
    ∃ P₁ I S, (Object.fresh t b (if t.sampled then some s else none)).construct K bytes₁ [] P = some (P₁, some (I, S)) ∧
      ∀ bytes₂, (∀ c ∈ bytes₂, c ≠ 0) → bytes₂.length + 1 < 2^64 → ∀ P₂, CacheHistory bytes₂ CleanDisk (Process.fresh Disk.empty) P₂ →
        ∃ P₃ I' S' q q₂, I.construct K bytes₂ S P₂ = some (P₃, some (I', S')) ∧ I'.queries S' = some q ∧ I'.loadCache K S' P₃.cache = some (I', S') ∧
          loadIn K t b s P₃ = some q₂ ∧
          ∀ X, X ≠ [] → (∀ c ∈ X, c ∈ bytes₁) → (∀ c ∈ X, c ∈ bytes₂) → (occurrences X bytes₁).length ≠ (occurrences X bytes₂).length →
            ∃ i j i₂ j₂, q.count X = some (i, j) ∧ j - i = (occurrences X bytes₁).length ∧
              q₂.count X = some (i₂, j₂) ∧ j₂ - i₂ = (occurrences X bytes₂).length ∧ q.count X ≠ q₂.count X := by
  obtain ⟨P₁, I, S, q, h1, h2, h3, h4, h5⟩ := construct_twice K bytes₁ h0 hn P hP t b s
  refine ⟨P₁, I, S, h1, fun bytes₂ g0 gn P₂ hP₂ => ?_⟩
  obtain ⟨P₃, q₂, h6, h7, h8⟩ := h5 bytes₂ g0 gn P₂ hP₂
  refine ⟨P₃, I, S, q, q₂, h6, h2, h4 _, h7, fun X hX hX₁ hX₂ hne => ?_⟩
  obtain ⟨q₂', e1, e2⟩ := c01_end_to_end t bytes₂ g0 gn s
  rw [h8] at e1
  cases e1
  obtain ⟨i, j, l, a1, -, -, a2, -⟩ := h3 X hX hX₁
  obtain ⟨i₂, j₂, l₂, b1, -, -, b2, -⟩ := e2 X hX hX₂
  refine ⟨i, j, i₂, j₂, a1, a2, b1, b2, fun e => hne ?_⟩
  rw [a1, b1] at e
  cases e
  exact a2.symm.trans b2

/-- "abab" first, then "ba" -/
example {α : Type} (K : Codec α) : ∃ P₁ I S P₃ I' S' q q₂, (Object.fresh .srCSASlimValidArea .sd (some 2)).construct K [97, 98, 97, 98] []
      (Process.fresh Disk.empty) = some (P₁, some (I, S)) ∧
    I.construct K [98, 97] S (Process.fresh Disk.empty) = some (P₃, some (I', S')) ∧ I'.queries S' = some q ∧
    loadIn K .srCSASlimValidArea .sd 2 P₃ = some q₂ ∧ q.count [97] ≠ q₂.count [97] := by
  obtain ⟨P₁, I, S, h1, h⟩ := c69_other_text_violation K [97, 98, 97, 98] (by decide) (by decide) _ .start .srCSASlimValidArea .sd 2
  obtain ⟨P₃, I', S', q, q₂, h2, h3, -, h4, h5⟩ := h [98, 97] (by decide) (by decide) _ .start
  obtain ⟨_, _, _, _, -, -, -, -, h6⟩ := h5 [97] (by decide) (by decide) (by decide) (by decide)
  exact ⟨P₁, I, S, P₃, I', S', q, q₂, h1, h2, h3, h4, h6⟩

end Sri
