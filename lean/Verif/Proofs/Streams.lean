import Verif.Model.Streams
import Verif.Proofs.Storage
/-! # Streams and copies of the data structures: helpers -/
namespace Sri
set_option autoImplicit false

/-- contract of sdsl's serialize and load: reading gives back what was written and leaves the rest of the stream -/
structure Prims.Faithful {α : Type} (A : Prims α) : Prop where
  size : ∀ x rest, A.decSize (A.encSize x ++ rest) = some (x, rest)
  ints : ∀ x rest, A.decInts (A.encInts x ++ rest) = some (x, rest)
  bits : ∀ x rest, A.decBits (A.encBits x ++ rest) = some (x, rest)
  sd : ∀ x rest, A.decSd (A.encSd x ++ rest) = some (x, rest)
  wt : ∀ x rest, A.decWt (A.encWt x ++ rest) = some (x, rest)
  alphabet : ∀ x rest, A.decAlphabet (A.encAlphabet x ++ rest) = some (x, rest)
  support : ∀ k x rest, A.decSupport k (A.encSupport k x ++ rest) = some (x, rest)

variable {α : Type} {A : Prims α}

theorem decEach_enc {β γ : Type} {e : β → List α} {d : List α → Option (γ × List α)} (g : β → γ) : ∀ (l : List β),
    (∀ x ∈ l, ∀ rest, d (e x ++ rest) = some (g x, rest)) → ∀ rest, decEach d l.length (l.flatMap e ++ rest) = some (l.map g, rest)
  | [], _, rest => rfl
  | x :: l, h, rest => by
    rw [List.length_cons, decEach, List.flatMap_cons, List.append_assoc, h x (by simp)]
    simp only [Option.bind_eq_bind, Option.bind_some, decEach_enc g l (fun y hy => h y (by simp [hy])), Option.pure_def, List.map_cons]

theorem decVec_enc (hA : A.Faithful) {β γ : Type} {e : β → List α} {d : List α → Option (γ × List α)} (g : β → γ) (l : List β)
    (h : ∀ x ∈ l, ∀ rest, d (e x ++ rest) = some (g x, rest)) (rest : List α) :
    decVec A d (encVec A e l ++ rest) = some (l.map g, rest) := by
  unfold decVec encVec
  rw [List.append_assoc, hA.size]
  simp only [Option.bind_eq_bind, Option.bind_some, decEach_enc g l h]

theorem decBv_enc (hA : A.Faithful) (b : BvKind) (bv : List Bool) (rest : List α) : decBv A b (encBv A b bv ++ rest) = some (bv, rest) := by
  cases b
  · exact hA.sd _ _
  · exact hA.bits _ _

/-- the support that is read: the own data, without vector -/
theorem support_load (hA : A.Faithful) (b : BvKind) (k : SupportKind) (s : Support) (rest : List α) :
    Support.load A b k (s.serialize A b k ++ rest) = some ({ data := match b with | .sd => [] | .plain => s.data, ptr := .null }, rest) := by
  cases b
  · rfl
  · simp only [Support.load, Support.serialize, hA.support, Option.bind_eq_bind, Option.bind_some, Option.pure_def]

theorem works_over (b : BvKind) (bv : List Bool) : (Support.over b bv).works b bv = true := by
  cases b <;> simp [Support.over, Support.works]

/-! ## RLEString -/

/-- what `load` makes of a BitVector -/
def BVObject.reloaded (b : BvKind) (x : BVObject) : BVObject :=
  { data := x.data, rank := { data := match b with | .sd => [] | .plain => x.rank.data, ptr := .own },
    select := { data := match b with | .sd => [] | .plain => x.select.data, ptr := .own } }

theorem BVObject.load_serialize (hA : A.Faithful) (b : BvKind) (x : BVObject) (rest : List α) :
    BVObject.load A b (x.serialize A b ++ rest) = some (x.reloaded b, rest) := by
  unfold BVObject.load BVObject.serialize
  rw [List.append_assoc, List.append_assoc, decBv_enc hA]
  simp only [Option.bind_eq_bind, Option.bind_some, support_load hA, Option.pure_def]
  rfl

theorem BVObject.works_reloaded {b : BvKind} {x : BVObject} (h : x.works b = true) : (x.reloaded b).works b = true := by
  cases b
  · simp [BVObject.works, BVObject.reloaded, Support.works]
  · simp only [BVObject.works, BVObject.reloaded, Support.works, Bool.or_eq_true, Bool.and_eq_true, decide_eq_true_eq] at h ⊢
    rcases h with h | ⟨⟨-, h1⟩, -, h2⟩
    · exact Or.inl h
    · exact Or.inr ⟨⟨trivial, decide_eq_true h1⟩, trivial, decide_eq_true h2⟩

theorem BVObject.works_copy (b : BvKind) (x : BVObject) : (x.copy b).works b = true := by
  simp [BVObject.works, BVObject.copy, works_over]

theorem RLEObject.view_eq_some {b : BvKind} {x : RLEObject} {S : RLEString} :
    x.view b = some S ↔ x.runs.works b = true ∧ (∀ y ∈ x.perSym, y.works b = true) ∧
      S = { r := x.r, b := x.b, runHeads := x.runHeads, runs := x.runs.data, perSym := x.perSym.map (·.data) } := by
  unfold RLEObject.view
  split
  · rename_i h
    rw [Bool.and_eq_true, List.all_eq_true] at h
    constructor
    · intro e; exact ⟨h.1, h.2, (Option.some.inj e).symm⟩
    · rintro ⟨-, -, rfl⟩; rfl
  · rename_i h
    rw [Bool.and_eq_true, List.all_eq_true] at h
    constructor
    · intro e; cases e
    · rintro ⟨h1, h2, -⟩; exact absurd ⟨h1, h2⟩ h

theorem RLEObject.view_ofString (b : BvKind) (S : RLEString) : (RLEObject.ofString b S).view b = some S := by
  rw [RLEObject.view_eq_some]
  refine ⟨BVObject.works_copy _ _, ?_, ?_⟩
  · intro y hy
    obtain ⟨bv, -, rfl⟩ := List.mem_map.1 hy
    split
    · rfl
    · exact BVObject.works_copy _ _
  · have : (List.map (fun bv => if bv = [] then BVObject.empty else (BVObject.ofBools b bv).copy b) S.perSym).map (·.data) = S.perSym := by
      rw [List.map_map]
      conv => rhs; rw [← List.map_id S.perSym]
      apply List.map_congr_left
      intro bv _
      simp only [Function.comp, id]
      split
      · rename_i h; rw [h]; rfl
      · rfl
    unfold RLEObject.ofString
    dsimp only
    rw [this]; rfl

theorem RLEObject.load_serialize (hA : A.Faithful) (b : BvKind) (x : RLEObject) (rest : List α) :
    RLEObject.load A b (x.serialize A b ++ rest) =
      some ({ x with runs := x.runs.reloaded b, perSym := x.perSym.map (·.reloaded b) }, rest) := by
  unfold RLEObject.load RLEObject.serialize
  simp only [List.append_assoc, hA.size, hA.wt, Option.bind_eq_bind, Option.bind_some, BVObject.load_serialize hA,
    decVec_enc hA (BVObject.reloaded b) x.perSym (fun y _ rest => BVObject.load_serialize hA b y rest), Option.pure_def]

theorem RLEObject.view_reloaded {b : BvKind} {x : RLEObject} {S : RLEString} (h : x.view b = some S) :
    RLEObject.view b { x with runs := x.runs.reloaded b, perSym := x.perSym.map (·.reloaded b) } = some S := by
  rw [RLEObject.view_eq_some] at h ⊢
  obtain ⟨h1, h2, rfl⟩ := h
  refine ⟨BVObject.works_reloaded h1, ?_, ?_⟩
  · intro y hy
    obtain ⟨z, hz, rfl⟩ := List.mem_map.1 hy
    exact BVObject.works_reloaded (h2 z hz)
  · simp [BVObject.reloaded, Function.comp_def]

/-! ## PsiCoreRLE -/

theorem EncVector.load_serialize (hA : A.Faithful) (dens : Nat) (E : EncVector) (rest : List α) :
    EncVector.load A dens (E.serialize A ++ rest) = some ({ E with dens := dens }, rest) := by
  simp only [EncVector.load, EncVector.serialize, List.append_assoc, hA.size, hA.bits, hA.ints, Option.bind_eq_bind, Option.bind_some,
    Option.pure_def]

theorem decPart_enc (hA : A.Faithful) (dens : Nat) (q : EncVector × List Nat) (rest : List α) :
    decPart A dens (encPart A q ++ rest) = some (({ q.1 with dens := dens }, q.2), rest) := by
  simp only [decPart, encPart, List.append_assoc, EncVector.load_serialize hA, hA.ints, Option.bind_eq_bind, Option.bind_some, Option.pure_def]

theorem PsiCoreRLE.load_serialize (hA : A.Faithful) (dens : Nat) (P : PsiCoreRLE) (hP : ∀ q ∈ P.parts, q.1.dens = dens) (rest : List α) :
    PsiCoreRLE.load A dens (P.serialize A ++ rest) = some (P, rest) := by
  have h : ∀ q ∈ P.parts, ∀ rest, decPart A dens (encPart A q ++ rest) = some (id q, rest) := by
    intro q hq rest
    rw [decPart_enc hA]
    obtain ⟨⟨d, sz, sp, z⟩, l⟩ := q
    have := hP _ hq
    dsimp only at this ⊢
    rw [this]; rfl
  simp only [PsiCoreRLE.load, PsiCoreRLE.serialize, List.append_assoc, hA.size, Option.bind_eq_bind, Option.bind_some,
    decVec_enc hA id P.parts h, List.map_id, Option.pure_def]

/-! ## PsiCoreBV -/

/-- all supports of a list work on the vectors of another -/
theorem all_zip_works {b : BvKind} : ∀ {l : List (List Bool)} {s : List Support}, s.length = l.length →
    ((l.zip s).all (fun q => q.2.works b q.1) = true ↔ ∀ i (h : i < l.length) (h' : i < s.length), s[i].works b l[i] = true) := by
  intro l s hl
  rw [List.all_eq_true]
  constructor
  · intro h i h1 h2
    have hm : (l[i], s[i]) ∈ l.zip s := by
      have hz : i < (l.zip s).length := by rw [List.length_zip]; omega
      have := List.getElem_mem hz
      rwa [List.getElem_zip] at this
    exact h _ hm
  · rintro h ⟨a, c⟩ hm
    obtain ⟨i, hi, e⟩ := List.getElem_of_mem hm
    rw [List.getElem_zip] at e
    rw [List.length_zip] at hi
    cases e
    exact h i (by omega) (by omega)

theorem PsiBVObject.view_eq_some {b : BvKind} {x : PsiBVObject} {P : PsiCoreBV} : x.view b = some P ↔
    x.ranks.length = x.parts.length ∧ x.selects.length = x.parts.length ∧
      (∀ i (h : i < x.parts.length) (h' : i < x.ranks.length), x.ranks[i].works b x.parts[i] = true) ∧
      (∀ i (h : i < x.parts.length) (h' : i < x.selects.length), x.selects[i].works b x.parts[i] = true) ∧
      P = { n := x.n, first := x.first, parts := x.parts } := by
  unfold PsiBVObject.view
  split
  · rename_i h
    obtain ⟨h1, h2, h3, h4⟩ := h
    constructor
    · intro e; exact ⟨h1, h2, (all_zip_works h1).1 h3, (all_zip_works h2).1 h4, (Option.some.inj e).symm⟩
    · rintro ⟨-, -, -, -, rfl⟩; rfl
  · rename_i h
    constructor
    · intro e; cases e
    · rintro ⟨h1, h2, h3, h4, -⟩
      exact absurd ⟨h1, h2, (all_zip_works h1).2 h3, (all_zip_works h2).2 h4⟩ h

theorem PsiBVObject.view_ofCore (b : BvKind) (P : PsiCoreBV) : (PsiBVObject.ofCore b P).view b = some P := by
  rw [PsiBVObject.view_eq_some]
  refine ⟨by simp [PsiBVObject.ofCore], by simp [PsiBVObject.ofCore], ?_, ?_, rfl⟩ <;>
  · intro i h h'
    simp only [PsiBVObject.ofCore, List.getElem_map, works_over]

/-- a support as it is read and given its vector -/
def Support.reloaded (b : BvKind) (s : Support) : Support := { data := match b with | .sd => [] | .plain => s.data, ptr := .own }

theorem Support.works_reloaded {b : BvKind} {s : Support} {bv : List Bool} (h : s.works b bv = true) : (s.reloaded b).works b bv = true := by
  cases b <;> simp_all [Support.works, Support.reloaded]

theorem setVectors_all {k : Nat} {l : List Support} (h : l.length = k) : PsiBVObject.setVectors k l = some (l.map (·.setVector)) := by
  subst h
  simp [PsiBVObject.setVectors]

theorem PsiBVObject.load_serialize (hA : A.Faithful) (b : BvKind) (x : PsiBVObject) (h1 : x.ranks.length = x.parts.length)
    (h2 : x.selects.length = x.parts.length) (rest : List α) :
    PsiBVObject.load A b (x.serialize A b ++ rest) =
      some ({ x with ranks := x.ranks.map (·.reloaded b), selects := x.selects.map (·.reloaded b) }, rest) := by
  have e : ∀ l : List Support, l.length = x.parts.length →
      PsiBVObject.setVectors x.parts.length
        (l.map (fun s => { data := match b with | .sd => [] | .plain => s.data, ptr := .null })) = some (l.map (·.reloaded b)) := by
    intro l hl
    rw [setVectors_all (by rw [List.length_map]; exact hl), List.map_map]
    rfl
  unfold PsiBVObject.load PsiBVObject.serialize
  simp only [List.append_assoc, hA.size, Option.bind_eq_bind, Option.bind_some]
  rw [decVec_enc hA id x.parts (fun y _ rest => decBv_enc hA b y rest)]
  simp only [Option.bind_some]
  rw [decVec_enc hA _ x.ranks (fun y _ rest => support_load hA b .rank1 y rest)]
  simp only [Option.bind_some]
  rw [decVec_enc hA _ x.selects (fun y _ rest => support_load hA b .select1 y rest)]
  simp only [Option.bind_some, List.map_id, e _ h1, e _ h2, Option.pure_def]

theorem PsiBVObject.view_reloaded {b : BvKind} {x : PsiBVObject} {P : PsiCoreBV} (h : x.view b = some P) :
    PsiBVObject.view b { x with ranks := x.ranks.map (·.reloaded b), selects := x.selects.map (·.reloaded b) } = some P := by
  rw [PsiBVObject.view_eq_some] at h ⊢
  obtain ⟨h1, h2, h3, h4, h5⟩ := h
  refine ⟨by simpa using h1, by simpa using h2, ?_, ?_, h5⟩
  · intro i hi hi'
    rw [List.getElem_map]; exact Support.works_reloaded (h3 i hi (by simpa using hi'))
  · intro i hi hi'
    rw [List.getElem_map]; exact Support.works_reloaded (h4 i hi (by simpa using hi'))

/-! ## The codec of the items -/

/-- the type of the item allows it: the psi functions are over vectors of density `dens` (a template argument) -/
def Item.HasDens (dens : Nat) : Item → Prop
  | .psi P => ∀ q ∈ P.parts, q.1.dens = dens
  | _ => True

theorem codecOf_faithful (hA : A.Faithful) (dens : Nat) : (codecOf A dens).FaithfulOn (Item.HasDens dens) where
  size := hA.size
  sdRank := fun _ => rfl
  sdSelect := fun _ => rfl
  item := by
    intro x rest hx
    cases x with
    | bwtRle S =>
      simp only [codecOf, Item.type, Item.unbound, RLEObject.load_serialize hA, Option.bind_eq_bind, Option.bind_some, Option.pure_def,
        RLEObject.view_reloaded (RLEObject.view_ofString .sd S)]
    | psi P =>
      simp only [codecOf, Item.type, Item.unbound, PsiCoreRLE.load_serialize hA dens P hx, Option.map_some]
    | _ => simp [codecOf, Item.type, Item.unbound, hA.alphabet, hA.ints, hA.sd, hA.bits, hA.support]

/-! ## The sparse vectors and rle_string -/

/-- two sparse vectors that differ at most in the supports of an empty vector -/
def SameBV (a b : SparseBV) : Prop := a = b ∨ (a.u = 0 ∧ b.u = 0 ∧ a.bits = [] ∧ b.bits = [])

theorem select_empty {a : SparseBV} (h1 : a.u = 0) (h2 : a.bits = []) (i : Nat) : a.select i = none := by
  unfold SparseBV.select SparseBV.numberOf1 SparseBV.rank1 SparseBV.size
  rw [h1, h2]
  cases a.bound <;> simp [bvRank, assertC]

theorem gapAt_empty {a : SparseBV} (h1 : a.u = 0) (h2 : a.bits = []) (i : Nat) : a.gapAt i = none := by
  unfold SparseBV.gapAt SparseBV.numberOf1 SparseBV.rank1 SparseBV.size
  rw [h1, h2]
  cases a.bound <;> simp [bvRank, assertC]

/-- two families of vectors of letters that differ at most in the supports of empty vectors -/
structure SameLetters (P Q : List SparseBV) : Prop where
  len : P.length = Q.length
  per : ∀ c (h : c < P.length) (h' : c < Q.length), SameBV P[c] Q[c]

namespace SameLetters
variable {P : List SparseBV} {t : RleString}

/-- anything a query does with the vector of a letter -/
theorem bind_letter {Q : List SparseBV} (h : SameLetters P Q) {γ : Type} (c : Nat) (f : SparseBV → Option γ) (hf : ∀ a b, SameBV a b → f a = f b) :
    (P[c]?).bind f = (Q[c]?).bind f := by
  by_cases hc : c < P.length
  · have hc' : c < Q.length := by rw [← h.len]; exact hc
    rw [List.getElem?_eq_getElem hc, List.getElem?_eq_getElem hc', Option.bind_some, Option.bind_some]
    exact hf _ _ (h.per c hc hc')
  · rw [List.getElem?_eq_none (by omega), List.getElem?_eq_none (by have := h.len; omega)]

theorem gap_same {a b : SparseBV} (h : SameBV a b) (i : Nat) : a.gapAt i = b.gapAt i := by
  rcases h with rfl | ⟨h1, h2, h3, h4⟩
  · rfl
  · rw [gapAt_empty h1 h3, gapAt_empty h2 h4]

theorem runAt (h : SameLetters P t.perLetter) (i : Nat) : RleString.runAt { t with perLetter := P } i = t.runAt i := by
  unfold RleString.runAt
  simp only [Option.bind_eq_bind]
  congr 1; funext _
  congr 1; funext c
  refine h.bind_letter c _ ?_
  intro a b hab
  congr 1; funext k
  exact gap_same hab k

theorem blockStart (k : Nat) : RleString.blockStart { t with perLetter := P } k = t.blockStart k := rfl

theorem scan (h : SameLetters P t.perLetter) (i : Nat) : ∀ fuel pos run dist,
    RleString.scan { t with perLetter := P } i fuel pos run dist = t.scan i fuel pos run dist
  | 0, _, _, _ => rfl
  | fuel + 1, pos, run, dist => by
    unfold RleString.scan
    rw [h.runAt]
    split
    · simp only [Option.bind_eq_bind]
      congr 1; funext l
      exact scan h i fuel _ _ _
    · rfl

theorem addRuns (h : SameLetters P t.perLetter) : ∀ k i acc, RleString.addRuns { t with perLetter := P } k i acc = t.addRuns k i acc
  | 0, _, _ => rfl
  | k + 1, i, acc => by
    unfold RleString.addRuns
    rw [h.runAt]
    simp only [Option.bind_eq_bind]
    congr 1; funext l
    exact addRuns h k _ _

theorem locateRun (h : SameLetters P t.perLetter) (i : Nat) : RleString.locateRun { t with perLetter := P } i = t.locateRun i := by
  unfold RleString.locateRun
  simp only [h.scan]; rfl

theorem runOfPosition (h : SameLetters P t.perLetter) (i : Nat) : RleString.runOfPosition { t with perLetter := P } i = t.runOfPosition i := by
  unfold RleString.runOfPosition
  simp only [h.locateRun]

theorem runOf (h : SameLetters P t.perLetter) (i : Nat) : RleString.runOf { t with perLetter := P } i = t.runOf i := by
  unfold RleString.runOf
  simp only [h.scan, h.runAt]; rfl

theorem access (h : SameLetters P t.perLetter) (i : Nat) : RleString.access { t with perLetter := P } i = t.access i := by
  unfold RleString.access
  simp only [h.runOf]

theorem select (h : SameLetters P t.perLetter) (i c : Nat) : RleString.select { t with perLetter := P } i c = t.select i c := by
  unfold RleString.select
  simp only [Option.bind_eq_bind, h.addRuns]
  rw [h.bind_letter c _ ?_]
  · rfl
  · rintro a b (rfl | ⟨h1, h2, h3, h4⟩)
    · rfl
    · simp [SparseBV.size, h1, h2, assertC]

theorem rank (h : SameLetters P t.perLetter) (i c : Nat) : RleString.rank { t with perLetter := P } i c = t.rank i c := by
  unfold RleString.rank
  simp only [Option.bind_eq_bind, h.locateRun]
  congr 1; funext _
  refine h.bind_letter c _ ?_
  rintro a b (rfl | ⟨h1, h2, h3, h4⟩)
  · rfl
  · simp [SparseBV.size, h1, h2]

theorem runRange (h : SameLetters P t.perLetter) (j : Nat) : RleString.runRange { t with perLetter := P } j = t.runRange j := by
  unfold RleString.runRange
  simp only [h.addRuns, h.runAt]; rfl

theorem breakRange (h : SameLetters P t.perLetter) (l r c : Nat) : RleString.breakRange { t with perLetter := P } l r c = t.breakRange l r c := by
  unfold RleString.breakRange
  simp only [h.access, h.runOf, h.runRange]; rfl

theorem runInfo (h : SameLetters P t.perLetter) (run : Nat) : RleString.runInfo { t with perLetter := P } run = t.runInfo run := by
  unfold RleString.runInfo
  simp only [Option.bind_eq_bind]
  congr 1; funext q
  refine h.bind_letter q.2 _ ?_
  intro a b hab
  rw [gap_same hab]

theorem findRun (h : SameLetters P t.perLetter) (first : Nat) : ∀ fuel pos run,
    RleString.findRun { t with perLetter := P } first fuel pos run = t.findRun first fuel pos run
  | 0, _, _ => rfl
  | fuel + 1, pos, run => by
    unfold RleString.findRun
    simp only [h.runInfo, findRun h first fuel]

theorem reportRuns (h : SameLetters P t.perLetter) (last : Nat) : ∀ fuel prev pos c run,
    RleString.reportRuns { t with perLetter := P } last fuel prev pos c run = t.reportRuns last fuel prev pos c run
  | 0, _, _, _, _ => rfl
  | fuel + 1, prev, pos, c, run => by
    unfold RleString.reportRuns
    simp only [h.runInfo, reportRuns h last fuel]

theorem breakInRuns (h : SameLetters P t.perLetter) (first last : Nat) :
    RleString.breakInRuns { t with perLetter := P } first last = t.breakInRuns first last := by
  unfold RleString.breakInRuns
  simp only [h.findRun, h.access, h.reportRuns]; rfl

theorem toString (h : SameLetters P t.perLetter) : RleString.toString { t with perLetter := P } = t.toString := by
  unfold RleString.toString
  have : RleString.access { t with perLetter := P } = t.access := funext h.access
  rw [this]; rfl

theorem closestRunBreak (h : SameLetters P t.perLetter) (first last c : Nat) :
    RleString.closestRunBreak { t with perLetter := P } first last c = t.closestRunBreak first last c := by
  unfold RleString.closestRunBreak
  simp only [h.access, h.runOfPosition, h.runRange, h.rank, h.select]; rfl

end SameLetters

/-- the object holds a complete vector -/
structure SparseObject.Whole (x : SparseObject) : Prop where
  u : x.u = x.bits.length
  rank : x.rank = .own
  select : x.select = .own

theorem SparseObject.whole_assign (x : SparseObject) : x.assign.Whole := ⟨rfl, rfl, rfl⟩

/-- what `load` over `old` makes of a vector -/
def SparseObject.reloaded (old x : SparseObject) : SparseObject := if x.u = 0 then { old with u := 0 } else x

theorem SparseObject.load_serialize (hA : A.Faithful) (old x : SparseObject) (h : x.Whole) (rest : List α) :
    old.load A (x.serialize A ++ rest) = some (old.reloaded x, rest) := by
  unfold SparseObject.load SparseObject.serialize SparseObject.reloaded
  rw [List.append_assoc, hA.size]
  simp only [Option.bind_eq_bind, Option.bind_some]
  by_cases hu : x.u = 0
  · simp [hu]
  · simp only [hu, if_false, hA.sd, Option.bind_some, Option.pure_def]
    obtain ⟨u, bits, r, s⟩ := x
    have h2 := h.rank
    have h3 := h.select
    dsimp only at h2 h3
    subst h2; subst h3; rfl

theorem SparseObject.Whole.view {x : SparseObject} (h : x.Whole) : x.view = some { u := x.u, bits := x.bits, bound := true } := by
  unfold SparseObject.view; rw [h.rank, h.select]

theorem mapM_view_eq : ∀ {l : List SparseObject} {f : SparseObject → SparseBV}, (∀ x ∈ l, x.view = some (f x)) →
    l.mapM (·.view) = some (l.map f)
  | [], _, _ => rfl
  | x :: l, f, h => by
    rw [List.mapM_cons, h x (by simp), mapM_view_eq (fun y hy => h y (by simp [hy]))]; rfl

/-- an object that the constructor or `load` left: 256 complete vectors of letters, and a string -/
structure RleObject.Whole (x : RleObject) : Prop where
  n : x.n ≠ 0
  runsNonempty : x.runs.u ≠ 0
  runs : x.runs.Whole
  len : x.perLetter.length = 256
  per : ∀ y ∈ x.perLetter, y.Whole

theorem RleObject.load_serialize (hA : A.Faithful) (old x : RleObject) (h : x.Whole) (rest : List α) :
    ∃ bytes, x.serialize A = some bytes ∧ old.load A (bytes ++ rest) =
      some ({ x with perLetter := x.perLetter.map (SparseObject.empty.reloaded) }, rest) := by
  have e : x.perLetter.take 256 = x.perLetter := List.take_of_length_le (Nat.le_of_eq h.len)
  refine ⟨A.encSize x.n ++ A.encSize x.R ++ A.encSize x.B ++ x.runs.serialize A ++ x.perLetter.flatMap (·.serialize A) ++ A.encWt x.heads, ?_, ?_⟩
  · unfold RleObject.serialize
    simp only [h.n, if_false, h.len, Nat.le_refl, if_true, e]
  · unfold RleObject.load
    simp only [List.append_assoc, hA.size, Option.bind_eq_bind, Option.bind_some, h.n, if_false]
    rw [SparseObject.load_serialize hA _ _ h.runs]
    simp only [Option.bind_some]
    have := decEach_enc (α := α) (e := fun y : SparseObject => y.serialize A) (d := SparseObject.load A .empty) (SparseObject.empty.reloaded)
      x.perLetter (fun y hy rest => SparseObject.load_serialize hA _ y (h.per y hy) rest)
    rw [h.len] at this
    rw [this]
    simp only [Option.bind_some, hA.wt, Option.pure_def, SparseObject.reloaded, h.runsNonempty, if_false]

/-- the vector of a letter after load, as its operations see it -/
theorem reloaded_view {y : SparseObject} (h : y.Whole) :
    (SparseObject.empty.reloaded y).view = some (if y.u = 0 then SparseBV.empty else { u := y.u, bits := y.bits, bound := true }) := by
  unfold SparseObject.reloaded
  split
  · rfl
  · exact h.view

/-- what the operations of a complete object see -/
def RleObject.string (x : RleObject) : RleString :=
  { B := x.B, n := x.n, R := x.R, heads := x.heads, runs := { u := x.runs.u, bits := x.runs.bits, bound := true },
    perLetter := x.perLetter.map (fun y => { u := y.u, bits := y.bits, bound := true }) }

theorem RleObject.Whole.view {x : RleObject} (h : x.Whole) : x.view = some x.string := by
  unfold RleObject.view
  rw [h.runs.view, mapM_view_eq (fun y hy => (h.per y hy).view)]; rfl

theorem RleObject.reloaded_view {x : RleObject} (h : x.Whole) : ∃ P,
    RleObject.view { x with perLetter := x.perLetter.map (SparseObject.empty.reloaded) } = some { x.string with perLetter := P } ∧
      SameLetters P x.string.perLetter := by
  refine ⟨x.perLetter.map (fun y => if y.u = 0 then SparseBV.empty else { u := y.u, bits := y.bits, bound := true }), ?_, ?_⟩
  · have : (x.perLetter.map (SparseObject.empty.reloaded)).mapM (fun y => y.view) =
        some (x.perLetter.map (fun y => if y.u = 0 then SparseBV.empty else { u := y.u, bits := y.bits, bound := true })) := by
      have key : ∀ l : List SparseObject, (∀ y ∈ l, y.Whole) → (l.map (SparseObject.empty.reloaded)).mapM (fun y => y.view) =
        some (l.map (fun y => if y.u = 0 then SparseBV.empty else { u := y.u, bits := y.bits, bound := true })) := by
        intro l
        induction l with
        | nil => intro _; rfl
        | cons y l ih =>
          intro hl
          rw [List.map_cons, List.mapM_cons, Sri.reloaded_view (hl y (by simp)), ih (fun z hz => hl z (by simp [hz]))]; rfl
      exact key _ h.per
    unfold RleObject.view
    dsimp only
    rw [h.runs.view, this]; rfl
  · refine ⟨by simp [RleObject.string], ?_⟩
    intro c hc hc'
    unfold RleObject.string at hc' ⊢
    dsimp only at hc' ⊢
    rw [List.getElem_map, List.getElem_map]
    have hc : c < x.perLetter.length := by simpa using hc
    have hw := h.per _ (List.getElem_mem hc)
    by_cases hu : x.perLetter[c].u = 0
    · rw [if_pos hu]
      refine Or.inr ⟨rfl, hu, rfl, ?_⟩
      have := hw.u; rw [hu] at this
      exact List.length_eq_zero_iff.1 this.symm
    · rw [if_neg hu]; exact Or.inl rfl

end Sri
