import Verif.Model.ByteCount
/-! # Proofs about the number that serialize returns -/
namespace Sri
set_option autoImplicit false

/-- the contract of sdsl: each of its types returns the number of bytes it has written -/
structure CountingPrims.Reports {α : Type} (A : CountingPrims α) : Prop where
  size : ∀ x, A.sizeOf = (A.encSize x).length
  ints : ∀ x, A.retInts x = (A.encInts x).length
  bits : ∀ x, A.retBits x = (A.encBits x).length
  sd : ∀ x, A.retSd x = (A.encSd x).length
  wt : ∀ x, A.retWt x = (A.encWt x).length
  alphabet : ∀ x, A.retAlphabet x = (A.encAlphabet x).length
  support : ∀ k x, A.retSupport k x = (A.encSupport k x).length

variable {α : Type}

/-- the number returned is the number of bytes written -/
def Out.Honest (o : Out α) : Prop := o.ret = o.bytes.length

namespace Out

theorem honest_start : (start : Out α).Honest := rfl

theorem honest_add {o c : Out α} (ho : o.Honest) (hc : c.Honest) : (o.add c).Honest := by
  simp only [Honest, add, List.length_append] at *; omega

@[simp] theorem bytes_start : (start : Out α).bytes = [] := rfl
@[simp] theorem bytes_add (o c : Out α) : (o.add c).bytes = o.bytes ++ c.bytes := rfl
@[simp] theorem bytes_write (o : Out α) (l : List α) : (o.write l).bytes = o.bytes ++ l := rfl
@[simp] theorem bytes_count (o : Out α) (k : Nat) : (o.count k).bytes = o.bytes := rfl

theorem honest_foldl {β : Type} {e : β → Out α} (he : ∀ x, (e x).Honest) : ∀ (l : List β) (o : Out α), o.Honest →
    (l.foldl (fun o x => o.add (e x)) o).Honest
  | [], _, h => h
  | x :: l, _, h => honest_foldl he l _ (honest_add h (he x))

theorem bytes_foldl {β : Type} (e : β → Out α) : ∀ (l : List β) (o : Out α),
    (l.foldl (fun o x => o.add (e x)) o).bytes = o.bytes ++ l.flatMap (fun x => (e x).bytes)
  | [], o => by simp
  | x :: l, o => by rw [List.foldl_cons, bytes_foldl e l]; simp

end Out

open Out

namespace CountingPrims
variable {A : CountingPrims α}

theorem honest_size (h : A.Reports) (x : Nat) : (A.size x).Honest := h.size x
theorem honest_ints (h : A.Reports) (x : List Nat) : (A.ints x).Honest := h.ints x
theorem honest_bits (h : A.Reports) (x : List Bool) : (A.bits x).Honest := h.bits x
theorem honest_sd (h : A.Reports) (x : List Bool) : (A.sd x).Honest := h.sd x
theorem honest_wt (h : A.Reports) (x : List Nat) : (A.wt x).Honest := h.wt x
theorem honest_alphabet (h : A.Reports) (x : Alphabet) : (A.alphabet x).Honest := h.alphabet x
theorem honest_support (h : A.Reports) (k : SupportKind) (x : List Bool) : (A.support k x).Honest := h.support k x

theorem honest_bv (h : A.Reports) (b : BvKind) (x : List Bool) : (A.bv b x).Honest := by
  cases b
  · exact honest_sd h x
  · exact honest_bits h x

theorem honest_supportOf (h : A.Reports) (b : BvKind) (k : SupportKind) (s : Support) : (A.supportOf b k s).Honest := by
  cases b
  · exact honest_start
  · exact honest_support h k s.data

theorem honest_vec (h : A.Reports) {β : Type} {e : β → Out α} (he : ∀ x, (e x).Honest) (l : List β) : (A.vec e l).Honest :=
  honest_add (honest_size h _) (honest_foldl he l _ honest_start)

theorem bytes_vec {β : Type} (e : β → Out α) (l : List β) : (A.vec e l).bytes = encVec A.toPrims (fun x => (e x).bytes) l := by
  simp only [vec, bytes_add, bytes_foldl, bytes_start, List.nil_append]; rfl

@[simp] theorem bytes_size (x : Nat) : (A.size x).bytes = A.encSize x := rfl
@[simp] theorem bytes_ints (x : List Nat) : (A.ints x).bytes = A.encInts x := rfl
@[simp] theorem bytes_bits (x : List Bool) : (A.bits x).bytes = A.encBits x := rfl
@[simp] theorem bytes_sd (x : List Bool) : (A.sd x).bytes = A.encSd x := rfl
@[simp] theorem bytes_wt (x : List Nat) : (A.wt x).bytes = A.encWt x := rfl
@[simp] theorem bytes_alphabet (x : Alphabet) : (A.alphabet x).bytes = A.encAlphabet x := rfl
@[simp] theorem bytes_support (k : SupportKind) (x : List Bool) : (A.support k x).bytes = A.encSupport k x := rfl
@[simp] theorem bytes_bv (b : BvKind) (x : List Bool) : (A.bv b x).bytes = encBv A.toPrims b x := by cases b <;> rfl
@[simp] theorem bytes_supportOf (b : BvKind) (k : SupportKind) (s : Support) : (A.supportOf b k s).bytes = s.serialize A.toPrims b k := by
  cases b <;> rfl

end CountingPrims

open CountingPrims

section
variable {A : CountingPrims α}

@[simp] theorem BVObject.bytes_serializeC (b : BvKind) (x : BVObject) : (x.serializeC A b).bytes = x.serialize A.toPrims b := by
  simp [BVObject.serializeC, BVObject.serialize]

theorem BVObject.honest (h : A.Reports) (b : BvKind) (x : BVObject) : (x.serializeC A b).Honest :=
  honest_add (honest_add (honest_add honest_start (honest_bv h b _)) (honest_supportOf h b _ _)) (honest_supportOf h b _ _)

@[simp] theorem RLEObject.bytes_serializeC (b : BvKind) (x : RLEObject) : (x.serializeC A b).bytes = x.serialize A.toPrims b := by
  simp [RLEObject.serializeC, RLEObject.serialize, bytes_vec]

theorem RLEObject.honest (h : A.Reports) (b : BvKind) (x : RLEObject) : (x.serializeC A b).Honest :=
  honest_add (honest_add (honest_add (honest_add (honest_add honest_start (honest_size h _)) (honest_size h _)) (honest_wt h _))
    (BVObject.honest h b _)) (honest_vec h (fun y => BVObject.honest h b y) _)

@[simp] theorem EncVector.bytes_serializeC (E : EncVector) : (E.serializeC A).bytes = E.serialize A.toPrims := by
  simp [EncVector.serializeC, EncVector.serialize]

theorem EncVector.honest (h : A.Reports) (E : EncVector) : (E.serializeC A).Honest :=
  honest_add (honest_add (honest_add honest_start (honest_size h _)) (honest_bits h _)) (honest_ints h _)

theorem honest_pair (left : Bool) {a b : Out α} (ha : a.Honest) (hb : b.Honest) : (pairSerialize left a b).Honest := by
  cases left <;> simp only [Out.Honest, pairSerialize, Bool.false_eq_true, if_false, if_true, List.length_append] at * <;> omega

theorem PsiCoreRLE.bytes_serializeC (P : PsiCoreRLE) : (P.serializeC A true).bytes = P.serialize A.toPrims := by
  have : (fun q : EncVector × List Nat => (pairSerialize true (q.1.serializeC A) (A.ints q.2)).bytes) = encPart A.toPrims := by
    funext q; simp [pairSerialize, encPart]
  simp [PsiCoreRLE.serializeC, PsiCoreRLE.serialize, bytes_vec, this]

theorem PsiCoreRLE.honest (h : A.Reports) (left : Bool) (P : PsiCoreRLE) : (P.serializeC A left).Honest := by
  simp only [PsiCoreRLE.serializeC]
  refine honest_add (honest_add (honest_add honest_start (honest_size h _)) (honest_size h _)) (honest_vec h ?_ _)
  intro q
  exact honest_pair left (EncVector.honest h q.1) (honest_ints h q.2)

theorem PsiBVObject.bytes_serializeC (b : BvKind) (x : PsiBVObject) : (x.serializeC A b).bytes = x.serialize A.toPrims b := by
  simp [PsiBVObject.serializeC, PsiBVObject.serialize, bytes_vec]

theorem PsiBVObject.honest (h : A.Reports) (b : BvKind) (x : PsiBVObject) : (x.serializeC A b).Honest :=
  honest_add (honest_add (honest_add (honest_add (honest_add honest_start (honest_size h _)) (honest_size h _))
    (honest_vec h (honest_bv h b) _)) (honest_vec h (honest_supportOf h b _) _)) (honest_vec h (honest_supportOf h b _) _)

@[simp] theorem SparseObject.bytes_serializeC (x : SparseObject) : (x.serializeC A).bytes = x.serialize A.toPrims := by
  simp only [SparseObject.serializeC, SparseObject.serialize]
  split <;> simp

theorem SparseObject.honest (h : A.Reports) (x : SparseObject) : (x.serializeC A).Honest := by
  have h0 : ((Out.start.write (A.encSize x.u)).count A.sizeOf).Honest := by
    simp [Out.Honest, Out.start, Out.write, Out.count, ← h.size x.u]
  simp only [SparseObject.serializeC]
  split
  · exact h0
  · exact honest_add h0 (honest_sd h _)

theorem lettersLoop {γ : Type} (l : List γ) (e : γ → Out α) : ∀ (k i : Nat) (w : Out α), i + k ≤ l.length →
    (List.range' i k).foldlM (fun w i => do
      let r ← l[i]?
      return w.add (e r)) w = some (((l.drop i).take k).foldl (fun o x => o.add (e x)) w)
  | 0, i, w, _ => by simp
  | k + 1, i, w, h => by
    have hi : i < l.length := by omega
    rw [List.range'_succ, List.foldlM_cons, List.getElem?_eq_getElem hi, List.drop_eq_getElem_cons hi, List.take_succ_cons, List.foldl_cons]
    simp only [Option.bind_eq_bind, Option.bind_some, Option.pure_def]
    exact lettersLoop l e k (i + 1) _ (by omega)

theorem lettersLoop_fault {γ : Type} (l : List γ) (e : γ → Out α) : ∀ (k i : Nat) (w : Out α), l.length < i + k → i ≤ l.length →
    (List.range' i k).foldlM (fun w i => do
      let r ← l[i]?
      return w.add (e r)) w = none
  | 0, i, w, h, h' => by omega
  | k + 1, i, w, h, h' => by
    rw [List.range'_succ, List.foldlM_cons]
    by_cases hi : i < l.length
    · rw [List.getElem?_eq_getElem hi]
      simp only [Option.bind_eq_bind, Option.bind_some, Option.pure_def]
      exact lettersLoop_fault l e k (i + 1) _ (by omega) (by omega)
    · rw [List.getElem?_eq_none (by omega)]; rfl

theorem RleObject.serializeC_eq (x : RleObject) : (x.serializeC A).map (·.bytes) = x.serialize A.toPrims := by
  simp only [RleObject.serializeC, RleObject.serialize]
  split
  · simp
  · split
    · rename_i h0 h
      rw [List.range_eq_range', lettersLoop x.perLetter _ 256 0 _ (by omega)]
      simp [bytes_foldl]
    · rename_i h0 h
      rw [List.range_eq_range', lettersLoop_fault x.perLetter _ 256 0 _ (by omega) (by omega)]
      simp

theorem RleObject.honest (h : A.Reports) (x : RleObject) {o : Out α} (ho : x.serializeC A = some o) : o.Honest := by
  have h0 : ((((Out.start.write (A.encSize x.n)).write (A.encSize x.R)).write (A.encSize x.B)).count (A.sizeOf + A.sizeOf + A.sizeOf)).Honest := by
    have h1 := h.size x.n
    have h2 := h.size x.R
    have h3 := h.size x.B
    simp only [Out.Honest, Out.start, Out.write, Out.count, List.length_append, List.length_nil]; omega
  simp only [RleObject.serializeC] at ho
  split at ho
  · simp only [Option.some.injEq] at ho; rw [← ho]; exact h0
  · by_cases hl : 256 ≤ x.perLetter.length
    · rw [List.range_eq_range', lettersLoop x.perLetter _ 256 0 _ (by omega)] at ho
      simp only [Option.bind_eq_bind, Option.bind_some, Option.pure_def, Option.some.injEq] at ho
      rw [← ho]
      exact honest_add (honest_foldl (fun y => SparseObject.honest h y) _ _ (honest_add h0 (SparseObject.honest h _))) (honest_wt h _)
    · rw [List.range_eq_range', lettersLoop_fault x.perLetter _ 256 0 _ (by omega) (by omega)] at ho
      simp at ho

/-! ## The indexes -/

theorem Item.bytes_serializeC (dens : Nat) (x : Item) : (x.serializeC A true).bytes = (codecOf A.toPrims dens).enc x := by
  cases x <;> simp [Item.serializeC, codecOf, PsiCoreRLE.bytes_serializeC]

theorem Item.honest (h : A.Reports) (left : Bool) (x : Item) : (x.serializeC A left).Honest := by
  cases x
  · exact honest_alphabet h _
  · exact RLEObject.honest h _ _
  · exact PsiCoreRLE.honest h _ _
  · exact honest_ints h _
  · exact honest_sd h _
  · exact honest_bits h _
  · exact honest_start
  · exact honest_start
  · exact honest_support h _ _
  · exact honest_support h _ _
  · exact honest_support h _ _

namespace Object

theorem bytes_itemC (dens : Nat) (I : Object) (S : Storage) (slot : Slot) (part : Part) (ty : ItemType) :
    (I.itemC A true S slot part ty).bytes = serializeItem (codecOf A.toPrims dens) S I.keys ⟨slot, part, ty⟩ := by
  simp only [itemC, serializeItem]
  split
  · rename_i x h; rw [h]; exact Item.bytes_serializeC dens x
  · rename_i h; rw [h]; rfl

theorem honest_itemC (h : A.Reports) (left : Bool) (I : Object) (S : Storage) (slot : Slot) (part : Part) (ty : ItemType) :
    (I.itemC A left S slot part ty).Honest := by
  simp only [itemC]
  split
  · exact Item.honest h left _
  · exact honest_start

theorem bytes_serializeC (dens : Nat) (I : Object) (S : Storage) :
    (I.serializeC A true S).bytes = I.serialize (codecOf A.toPrims dens) S := by
  obtain ⟨t, b, rate, pre, keys⟩ := I
  cases t <;>
    simp [serializeC, serialize, rIndexC, srIndexC, validMarkC, validAreaC, rcsaC, srCSABaseC, slimC, srCSAC, bytes_itemC dens, writes, navTy,
      IndexType.rateInStream, IndexType.sampled, IndexType.overBWT, IndexType.overPsiRuns, IndexType.counted, IndexType.overPositions,
      IndexType.withMarks, IndexType.withAreas] <;> rfl

section
variable (h : A.Reports) (left : Bool) (I : Object) (S : Storage)
include h

theorem honest_rIndexC : (I.rIndexC A left S).Honest := by
  simp only [rIndexC]
  repeat' first | exact honest_start | exact honest_itemC h left I S _ _ _ | apply honest_add

theorem honest_srIndexC : (I.srIndexC A left S).Honest := by
  simp only [srIndexC]
  repeat' first | exact honest_start | exact honest_itemC h left I S _ _ _ | exact honest_size h _ | exact honest_rIndexC h left I S | apply honest_add

theorem honest_rcsaC : (I.rcsaC A left S).Honest := by
  simp only [rcsaC]
  repeat' first | exact honest_start | exact honest_itemC h left I S _ _ _ | apply honest_add

theorem honest_srCSABaseC : (I.srCSABaseC A left S).Honest := by
  simp only [srCSABaseC]
  repeat' first | exact honest_start | exact honest_size h _ | exact honest_rcsaC h left I S | apply honest_add

theorem honest_slimC {base : Out α} (hb : base.Honest) : (I.slimC A left S base).Honest := by
  simp only [slimC]
  repeat' first | exact honest_start | exact hb | exact honest_itemC h left I S _ _ _ | apply honest_add

theorem honest_srCSAC : (I.srCSAC A left S).Honest := by
  simp only [srCSAC]
  repeat' first | exact honest_start | exact honest_srCSABaseC h left I S | exact honest_itemC h left I S _ _ _ | apply honest_add

theorem honest_validMarkC {base : Out α} (hb : base.Honest) : (I.validMarkC A left S base).Honest := by
  simp only [validMarkC]
  repeat' first | exact hb | exact honest_itemC h left I S _ _ _ | apply honest_add

theorem honest_validAreaC {base : Out α} (hb : base.Honest) : (I.validAreaC A left S base).Honest := by
  simp only [validAreaC]
  repeat' first | exact hb | exact honest_itemC h left I S _ _ _ | apply honest_add

theorem honest_serializeC : (I.serializeC A left S).Honest := by
  have hR := honest_rIndexC h left I S
  have hS := honest_srIndexC h left I S
  have hC := honest_rcsaC h left I S
  have hB := honest_srCSABaseC h left I S
  have hA := honest_srCSAC h left I S
  have hl1 := honest_slimC h left I S hB
  have hl2 := honest_slimC h left I S hC
  simp only [serializeC]
  split
  · exact hR
  · exact hS
  · exact honest_validMarkC h left I S hS
  · exact honest_validAreaC h left I S (honest_validMarkC h left I S hS)
  · exact hC
  · exact hC
  · exact hA
  · exact hl1
  · exact honest_validMarkC h left I S hA
  · exact honest_validAreaC h left I S (honest_validMarkC h left I S hA)
  · exact honest_validMarkC h left I S hl1
  · exact honest_validAreaC h left I S (honest_validMarkC h left I S hl1)
  · exact hl2
  · exact honest_validMarkC h left I S hl2
  · exact honest_validAreaC h left I S (honest_validMarkC h left I S hl2)

end
end Object
end
end Sri
