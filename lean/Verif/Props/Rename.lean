import Verif.Proofs.RenameBuild
import Verif.Props.AllIndexes
/-! # C82: an index knows the symbols of its text only by their order

Two texts that differ by a renaming of their symbols which keeps the order have the same suffix array, the same items but for the characters of
the alphabet, and the same answers, to every pattern: also to the empty one, to those with symbols that are not in the text, and where the answer
is wrong or there is none. -/
namespace Sri
set_option autoImplicit false

/-- `φ` keeps the order of the symbols of `T` and the terminator -/
def OrderRenaming (φ : Nat → Nat) (T : List Nat) : Prop := φ 0 = 0 ∧ ∀ a ∈ T, ∀ b ∈ T, a < b → φ a < φ b

/-- renamed, the symbols of `P` that are not in `T` are not in the renamed text either -/
def FreshKept (φ : Nat → Nat) (P T : List Nat) : Prop := ∀ c ∈ P, c ∉ T → φ c ∉ T.map φ

/-- **C82**: the renamed text has the same suffix array -/
theorem c82_suffix_array {φ : Nat → Nat} {T sa : List Nat} (hT : IsText T) (hsa : IsSA T sa) (hφ : OrderRenaming φ T) :
    IsText (T.map φ) ∧ IsSA (T.map φ) sa := by
  refine ⟨?_, Rename.isSA hφ.2 hsa⟩
  obtain ⟨u, rfl, hu⟩ := hT
  refine ⟨u.map φ, by simp [hφ.1], fun c hc => ?_⟩
  obtain ⟨a, ha, rfl⟩ := List.mem_map.1 hc
  have h0 := hu a ha
  have := hφ.2 0 (by simp) a (by simp [ha]) (by omega)
  omega

theorem text_ne_nil {T : List Nat} (hT : IsText T) : T ≠ [] := by
  obtain ⟨u, rfl, -⟩ := hT
  simp

/-- **C82**, the r-index classes: every item but the characters of the alphabet is the same -/
theorem c82_items_r {φ : Nat → Nat} {T : List Nat} (hT : IsText T) (hφ : OrderRenaming φ T) (sa : List Nat) (s : Nat) :
    RIndex.build (T.map φ) sa = (RIndex.build T sa).map (fun I =>
      { I with alphabet := { I.alphabet with chars := I.alphabet.chars.map φ } }) ∧
    SrIndex.build (T.map φ) sa s = (SrIndex.build T sa s).map (fun I =>
      { I with base := { I.base with alphabet := { I.base.alphabet with chars := I.base.alphabet.chars.map φ } } }) ∧
    SrIndexValid.build (T.map φ) sa s = (SrIndexValid.build T sa s).map (fun I =>
      { I with sr := { I.sr with base := { I.sr.base with alphabet := { I.sr.base.alphabet with chars := I.sr.base.alphabet.chars.map φ } } } }) :=
  ⟨Rename.rIndex_build hφ.2 (text_ne_nil hT), Rename.srIndex_build hφ.2 (text_ne_nil hT) s, Rename.srIndexValid_build hφ.2 (text_ne_nil hT) s⟩

/-- **C82**, the classes over psi: every item but the characters of the alphabet is the same -/
theorem c82_items_csa {φ : Nat → Nat} {T : List Nat} (hT : IsText T) (hφ : OrderRenaming φ T) (sa : List Nat) (s : Nat) :
    (∀ build ∈ [RCSABwt.build, RCSAPsi.build], build (T.map φ) sa = (build T sa).map (fun I =>
      { I with alphabet := { I.alphabet with chars := I.alphabet.chars.map φ } })) ∧
    (∀ build ∈ [SrCSA.build, SrCSA.buildSlim, SrCSA.buildPsi], build (T.map φ) sa s = (build T sa s).map (fun I =>
      { I with alphabet := { I.alphabet with chars := I.alphabet.chars.map φ } })) ∧
    (∀ build ∈ [SrCSAValid.build, SrCSAValid.buildSlim, SrCSAValid.buildPsi], build (T.map φ) sa s = (build T sa s).map (fun I =>
      { I with csa := { I.csa with alphabet := { I.csa.alphabet with chars := I.csa.alphabet.chars.map φ } } })) := by
  have hn := text_ne_nil hT
  refine ⟨?_, ?_, ?_⟩ <;> simp only [List.forall_mem_cons, List.not_mem_nil, false_imp_iff, implies_true, and_true]
  · exact ⟨Rename.rcsaBwt_build hφ.2 hn, Rename.rcsaPsi_build hφ.2 hn⟩
  · exact ⟨Rename.srcsa_build hφ.2 hn s, Rename.srcsa_buildSlim hφ.2 hn s, Rename.srcsa_buildPsi hφ.2 hn s⟩
  · exact ⟨Rename.srcsaValid_build hφ.2 hn s, Rename.srcsaValid_buildSlim hφ.2 hn s, Rename.srcsaValid_buildPsi hφ.2 hn s⟩

/-- **C82**: the indexes of the two texts, of every type and at every rate, answer every pattern and its renamed copy alike -/
theorem c82_answers (t : IndexType) {φ : Nat → Nat} {T sa : List Nat} (hT : IsText T) (hsa : IsSA T sa) (hn : T.length < 2 ^ 64) (s : Nat)
    (hφ : OrderRenaming φ T) :
    ∃ q q', buildIndex t T sa s = some q ∧ buildIndex t (T.map φ) sa s = some q' ∧
      ∀ P, FreshKept φ P T → q'.count (P.map φ) = q.count P ∧ q'.locate (P.map φ) = q.locate P := by
  obtain ⟨hT', hsa'⟩ := c82_suffix_array hT hsa hφ
  obtain ⟨q, hq, -⟩ := buildIndex_exact t hT hsa hn s
  obtain ⟨q', hq', -⟩ := buildIndex_exact t hT' hsa' (by rwa [List.length_map]) s
  refine ⟨q, q', hq, hq', ?_⟩
  have h := Rename.alike (sa := sa) hφ.2 (text_ne_nil hT) t s
  rw [hq, hq'] at h
  exact h

/-! "banana" in capitals; the pattern "zna" has a symbol that is not in the text. -/
def exUpper (c : Nat) : Nat := if c = 0 then 0 else c - 32
def exBanana : List Nat := [98, 97, 110, 97, 110, 97, 0]
def exBananaSA : List Nat := [6, 5, 3, 1, 0, 4, 2]

example : IsText exBanana := ⟨[98, 97, 110, 97, 110, 97], rfl, by decide⟩
example : IsSA exBanana exBananaSA := by unfold IsSA; decide +kernel
example : OrderRenaming exUpper exBanana := by unfold OrderRenaming; decide +kernel
example : FreshKept exUpper [122, 110, 97] exBanana ∧ FreshKept exUpper [97, 110] exBanana ∧ FreshKept exUpper [] exBanana := by
  unfold FreshKept; decide +kernel
example : exBanana.map exUpper = [66, 65, 78, 65, 78, 65, 0] := by decide +kernel
example : (buildIndex .srCSASlim exBanana exBananaSA 2).bind (fun q => q.locate [97, 110]) = some [3, 1] ∧
    (buildIndex .srCSASlim (exBanana.map exUpper) exBananaSA 2).bind (fun q => q.locate [65, 78]) = some [3, 1] := by
  decide +kernel
/-- a renaming that does not keep the order changes the suffix array -/
example : ¬ IsSA (exBanana.map (fun c => if c = 97 then 99 else c)) exBananaSA := by unfold IsSA; decide +kernel

end Sri
