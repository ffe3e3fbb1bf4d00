import Verif.Proofs.SizeTree
import Verif.Props.ByteCount
/-! # C70: the structure tree -/
namespace Sri
set_option autoImplicit false

variable {α : Type}

/-- the children of `q` are finitely many, and their sizes add up to `n` -/
def SizeTree.SumsTo (t : SizeTree) (q : NodePath) (n : Nat) : Prop :=
  ∃ ks : List String, ks.Nodup ∧ (∀ k, t (q ++ [k]) ≠ none ↔ k ∈ ks) ∧ (ks.map (fun k => (t (q ++ [k])).getD 0)).sum = n

/-- the tree has no node at `q` or below it -/
def SizeTree.FreshAt (t : SizeTree) (q : NodePath) : Prop := ∀ x, q <+: x → t x = none

theorem Filed.sumsTo {q : NodePath} {l : List (String × Nat)} {o : Out α} {f : Filing α} (h : Filed q l o f) {t : SizeTree} (ht : t.FreshAt q) :
    (f t).2.SumsTo q o.ret := by
  obtain ⟨ks, h1, h2, h3⟩ := filed_sum l
  have e : ∀ k, (f t).2 (q ++ [k]) = filed l k := by
    intro k
    rw [h.kids, ht _ (List.prefix_append _ _)]
    cases filed l k <;> simp [refiled]
  refine ⟨ks, h1, fun k => by rw [e]; exact h2 k, ?_⟩
  simp only [e]
  rw [h3, h.sum]

theorem Object.class_of (A : CountingPrims α) (left : Bool) (I : Object) (S : Storage) :
    I.ClassFiled A left S (I.type.entries I.bv) (I.serializeC A left S) (I.serializeT A left S) := by
  have hs : I.ClassFiled A left S (IndexType.entries .srCSASlim I.bv) _ (I.slimT A left S (I.srCSABaseT A left S)) :=
    Object.slimT_class Object.srCSABaseT_class
  have hp : I.ClassFiled A left S (IndexType.entries .srCSAWithPsiRun I.bv) _ (I.slimT A left S (I.rcsaT A left S)) :=
    Object.slimT_class Object.rcsaT_class
  have h1 : I.ClassFiled A left S _ _ _ := Object.rIndexT_class
  have h2 : I.ClassFiled A left S _ _ _ := Object.srIndexT_class
  have h3 : I.ClassFiled A left S _ _ _ := Object.rcsaT_class
  have h4 : I.ClassFiled A left S _ _ _ := Object.srCSAT_class
  unfold Object.serializeC Object.serializeT
  generalize I.type = t
  cases t with
  | rIndex => exact h1
  | srIndex => exact h2
  | srIndexValidMark => exact Object.validMarkT_class h2
  | srIndexValidArea => exact Object.validAreaT_class (Object.validMarkT_class h2)
  | rcsaWithBWTRun => exact h3
  | rcsaWithPsiRun => exact h3
  | srCSA => exact h4
  | srCSASlim => exact hs
  | srCSAValidMark => exact Object.validMarkT_class h4
  | srCSAValidArea => exact Object.validAreaT_class (Object.validMarkT_class h4)
  | srCSASlimValidMark => exact Object.validMarkT_class hs
  | srCSASlimValidArea => exact Object.validAreaT_class (Object.validMarkT_class hs)
  | srCSAWithPsiRun => exact hp
  | psiValidMark => exact Object.validMarkT_class hp
  | psiValidArea => exact Object.validAreaT_class (Object.validMarkT_class hp)

theorem entries_nodup (t : IndexType) (b : BvKind) : ((t.entries b).map TreeEntry.key).Nodup := by
  cases t <;> cases b <;> decide +kernel

/-! ## C70 -/

/-- **C70**, without a tree: with `nullptr` for the node, serialize writes and returns what it does without a tree, and no tree changes. -/
theorem c70_nullptr (A : CountingPrims α) (I : Object) (S : Storage) (name : String) (t : SizeTree) :
    I.serializeT A true S none name t = (I.serializeC A true S, t) :=
  (Object.class_of A true I S).silent name t

/-- **C70**, indexes: whatever the class of an index and what its storage holds, serialize(out, v, name) writes and returns what it does without a
    tree. It adds one node below `v`, with the name and the class of the index; below that, each entry of the class adds as many bytes to the
    child of its name and class as it adds to the stream; nothing else but the nodes below these children changes. The full statement
    would also say that the node of the index shows the bytes of the index, which it does not (`c70_index_node_violation`). -/
theorem c70_index_partial (A : CountingPrims α) (hA : A.Reports) (dens : Nat) (I : Object) (S : Storage) (p : NodePath) (name : String)
    (t : SizeTree) : ∃ o t' q, q = p ++ [name ++ I.type.className] ∧ I.serializeT A true S (some p) name t = (o, t') ∧
      o.bytes = I.serialize (codecOf A.toPrims dens) S ∧ o.ret = o.bytes.length ∧
      (∀ x, ¬ q <+: x → t' x = t x) ∧
      t' q ≠ none ∧
      (∀ e ∈ I.type.entries I.bv, t' (q ++ [e.key]) = some ((t (q ++ [e.key])).getD 0 + (I.entryBytes A true S e).length)) ∧
      (∀ k, (∀ e ∈ I.type.entries I.bv, e.key ≠ k) → t' (q ++ [k]) = t (q ++ [k])) ∧
      (t.FreshAt q → t'.SumsTo q o.bytes.length) := by
  have h := Object.class_of A true I S
  have hf := h.filed p name
  have hh : (I.serializeC A true S).ret = (I.serializeC A true S).bytes.length := Object.honest_serializeC hA true I S
  refine ⟨I.serializeC A true S, (I.serializeT A true S (some p) name t).2, I.nodeOf p name, rfl, by rw [← hf.out t], Object.bytes_serializeC dens I S, hh,
    hf.outside t, by rw [h.node]; simp, fun e he => ?_, fun k hk => ?_, fun ht => hh ▸ hf.sumsTo ht⟩
  · rw [hf.kids]
    have hn := entries_nodup I.type I.bv
    have : filed (I.entryParts A true S (I.type.entries I.bv)) e.key = some (I.entryBytes A true S e).length := by
      rw [filed_nodup (k := e.key) (n := (I.entryC A true S e).ret)]
      · rw [← Object.entryC_bytes, Object.entryC_honest hA]
      · simpa [Object.entryParts, Function.comp_def] using hn
      · exact List.mem_map.mpr ⟨e, he, rfl⟩
    rw [this]; rfl
  · rw [hf.kids]
    have : filed (I.entryParts A true S (I.type.entries I.bv)) k = none := by
      unfold filed
      rw [if_neg]
      simp only [Object.entryParts, List.map_map, List.mem_map, not_exists, not_and]
      exact fun e he => hk e he
    rw [this]; rfl

/-- **C70**, indexes: the node of the index itself stays at 0, whatever the class and the storage of the index: no serialize of an index ends with add_size.
    For every text, rate and class of indexes, serializing the constructed and loaded index into a fresh tree leaves
    a node that claims no bytes, although it stands for all of the stream. -/
theorem c70_index_node_violation (A : CountingPrims α) (hne : ∀ a, A.encAlphabet a ≠ []) (t : IndexType)
    (b : BvKind) (T sa : List Nat) (hT : IsText T) (hsa : IsSA T sa) (hn : T.length < 2^64) (s : Nat) (C : Cache) (hC : C.HasIndex t b T sa s)
    (p : NodePath) (name : String) (tree : SizeTree) (hfresh : tree.FreshAt (p ++ [name ++ t.className])) :
    ∃ I S o tree', (Object.fresh t b (rateArg t s)).loadCache (codecOf A.toPrims 64) [] C = some (I, S) ∧
      I.serializeT A true S (some p) name tree = (o, tree') ∧ tree' (p ++ [name ++ t.className]) = some 0 ∧ 0 < o.bytes.length := by
  obtain ⟨p', hp, hC⟩ := hC
  obtain ⟨q, hq, -⟩ := buildIndex_exact t hT hsa hn s
  obtain ⟨I, S, h1, -, h2, h3, h4, -⟩ := load_constructed (codecOf A.toPrims 64) hp hC (S := []) (fun _ _ => Or.inl rfl)
  rw [hq] at h2
  subst h3; subst h4
  have h := Object.class_of A true I S
  refine ⟨I, S, (I.serializeT A true S (some p) name tree).1, (I.serializeT A true S (some p) name tree).2, h1, rfl, ?_, ?_⟩
  · have := h.node p name tree
    rw [show tree (I.nodeOf p name) = none from hfresh _ (List.prefix_refl _)] at this
    exact this
  · rw [(h.filed p name).out, Object.bytes_serializeC 64 I S]
    simp only [Object.queries, Option.bind_eq_bind, Option.bind_eq_some_iff] at h2
    obtain ⟨P, hP, -⟩ := h2
    have hw : (⟨.alphabet, .self, .alphabet⟩ : Write) ∈ writes I.type I.bv := mem_writes.2 (by simp)
    have hg := (collect_items hP).2 _ hw
    have hi : serializeItem (codecOf A.toPrims 64) S I.keys ⟨.alphabet, .self, .alphabet⟩ = A.encAlphabet P.alphabet := by
      have hg' : S.get .alphabet (I.keys .alphabet ++ Part.self.suffix) = some (.alphabet P.alphabet) := hg
      simp only [serializeItem, hg']
      rfl
    refine List.length_pos_of_ne_nil (fun e => ?_)
    simp only [Object.serialize, List.append_eq_nil_iff, List.flatMap_eq_nil_iff] at e
    exact hne P.alphabet (hi ▸ e.2 _ hw)

/-- the classes that class_name cannot tell apart: it leaves out the template arguments, and with them the index below the validity marks -/
def IndexType.SharesName (t u : IndexType) : Prop :=
  t = u ∨ (t ∈ [.srCSAValidMark, .srCSASlimValidMark] ∧ u ∈ [.srCSAValidMark, .srCSASlimValidMark]) ∨
    (t ∈ [.srCSAValidArea, .srCSASlimValidArea] ∧ u ∈ [.srCSAValidArea, .srCSASlimValidArea])

instance (t u : IndexType) : Decidable (t.SharesName u) := by unfold IndexType.SharesName; infer_instance

theorem className_eq_iff (t u : IndexType) : t.className = u.className ↔ t.SharesName u := by
  cases t <;> cases u <;> decide +kernel

/-- **C70**, two indexes below one node and under one name: the second leaves the node of the first and all below it as they are, if
    class_name tells the two classes apart. If it does not, they share one node, and the sizes of its children add up to the bytes of both. -/
theorem c70_two_indexes (A : CountingPrims α) (hA : A.Reports) (I J : Object) (S S' : Storage) (p : NodePath) (name : String) (t : SizeTree) :
    ∃ o₁ t₁ o₂ t₂, I.serializeT A true S (some p) name t = (o₁, t₁) ∧ J.serializeT A true S' (some p) name t₁ = (o₂, t₂) ∧
      (¬ I.type.SharesName J.type → ∀ x, (p ++ [name ++ I.type.className]) <+: x → t₂ x = t₁ x) ∧
      (I.type.SharesName J.type → t.FreshAt (p ++ [name ++ I.type.className]) →
        t₂.SumsTo (p ++ [name ++ I.type.className]) (o₁.bytes.length + o₂.bytes.length)) := by
  have hI := (Object.class_of A true I S).filed p name
  have hJ := (Object.class_of A true J S').filed p name
  have e1 : (I.serializeC A true S).ret = (I.serializeC A true S).bytes.length := Object.honest_serializeC hA true I S
  have e2 : (J.serializeC A true S').ret = (J.serializeC A true S').bytes.length := Object.honest_serializeC hA true J S'
  refine ⟨I.serializeC A true S, (I.serializeT A true S (some p) name t).2, J.serializeC A true S', _, by rw [← hI.out t],
    by rw [← hJ.out (I.serializeT A true S (some p) name t).2], fun h x hx => ?_, fun h ht => ?_⟩
  · refine hJ.outside _ _ (fun hx' => h ?_)
    rw [← className_eq_iff]
    obtain ⟨a, ha⟩ := hx
    obtain ⟨b, hb⟩ := hx'
    rw [← ha] at hb
    simp only [Object.nodeOf, List.append_assoc, List.singleton_append] at hb
    have := List.append_cancel_left hb
    simp only [List.cons.injEq] at this
    exact (String.append_right_inj _).1 this.1.symm
  · have hq : J.nodeOf p name = I.nodeOf p name := by
      unfold Object.nodeOf
      rw [(className_eq_iff _ _).2 h]
    rw [hq] at hJ
    have := (hI.add hJ).sumsTo ht
    rw [show (Out.add (I.serializeC A true S) (J.serializeC A true S')).ret = (I.serializeC A true S).ret + (J.serializeC A true S').ret from rfl, e1, e2] at this
    exact this

-- two classes that share a node, and two that do not
example : IndexType.SharesName .srCSAValidArea .srCSASlimValidArea ∧ ¬ IndexType.SharesName .srCSA .srCSASlim := by decide

/-- the call files one node under `v`, with the given name and class: the bytes it writes are added to the size of that node, nothing outside of it
    changes, and the children of a new node account for all of its bytes -/
def FilesItself (cls : String) (c : Out α) (f : Option NodePath → String → Filing α) : Prop :=
  (∀ name t, f none name t = (c, t)) ∧
  ∀ (p : NodePath) (name : String) (t : SizeTree), ∃ t' q, q = p ++ [name ++ cls] ∧ f (some p) name t = (c, t') ∧
    t' q = some ((t q).getD 0 + c.bytes.length) ∧ (∀ x, ¬ q <+: x → t' x = t x) ∧ (t.FreshAt q → t'.SumsTo q c.bytes.length)

theorem filesItself_of {cls : String} {c : Out α} {f : Option NodePath → String → Filing α} (hc : c.Honest)
    (h : ∀ p name, NodeFiled p name cls c (f (some p) name)) (hs : ∀ name, Silent c (f none name)) : FilesItself cls c f := by
  refine ⟨fun name t => hs name t, fun p name t => ⟨(f (some p) name t).2, _, rfl, ?_, ?_, fun x hx => ?_, fun ht => ?_⟩⟩
  · rw [← (h p name).filed.out t]
  · rw [(h p name).filed.kids, ← hc]
    simp [filed, refiled]
  · exact (h p name).outside t x hx
  · obtain ⟨l, h1, h2⟩ := (h p name).parts
    obtain ⟨ks, g1, g2, g3⟩ := filed_sum l
    have e : ∀ k, (f (some p) name t).2 (p ++ [name ++ cls] ++ [k]) = filed l k := by
      intro k
      rw [h2, ht _ (List.prefix_append _ _)]
      cases filed l k <;> simp [refiled]
    refine ⟨ks, g1, fun k => by rw [e]; exact g2 k, ?_⟩
    simp only [e]
    rw [g3, h1]
    exact hc

/-- **C70**, the structures with a serialize that ends with add_size: RLEString and its bit vectors, enc_vector, PsiCoreRLE and PsiCoreBV, whatever they hold. -/
theorem c70_structures (A : CountingPrims α) (hA : A.Reports) :
    (∀ (b : BvKind) (x : BVObject), FilesItself "sri::RLEString" (x.serializeC A b) (x.serializeT A b)) ∧
    (∀ (b : BvKind) (x : RLEObject), FilesItself "sri::RLEString" (x.serializeC A b) (x.serializeT A b)) ∧
    (∀ E : EncVector, FilesItself "sri::enc_vector" (E.serializeC A) (E.serializeT A)) ∧
    (∀ P : PsiCoreRLE, FilesItself "sri::PsiCoreRLE" (P.serializeC A true) (P.serializeT A true)) ∧
    (∀ (b : BvKind) (x : PsiBVObject), FilesItself "sri::PsiCoreBV" (x.serializeC A b) (x.serializeT A b)) :=
  ⟨fun b x => filesItself_of (BVObject.honest hA b x) (fun p name => BVObject.nodeFiled p name b x) (fun name => BVObject.silent name b x),
    fun b x => filesItself_of (RLEObject.honest hA b x) (fun p name => RLEObject.nodeFiled p name b x) (fun name => RLEObject.silent name b x),
    fun E => filesItself_of (EncVector.honest hA E) (fun p name => EncVector.nodeFiled p name E) (fun name => EncVector.silent name E),
    fun P => filesItself_of (PsiCoreRLE.honest hA true P) (fun p name => PsiCoreRLE.nodeFiled true p name P)
      (fun name => PsiCoreRLE.silent true name P),
    fun b x => filesItself_of (PsiBVObject.honest hA b x) (fun p name => PsiBVObject.nodeFiled p name b x)
      (fun name => PsiBVObject.silent name b x)⟩

/-! ## Examples -/

/-- the tree of one index: the sizes of the node of the index and of its children, for the constructed and loaded index of `exText` -/
def exTree (t : IndexType) (b : BvKind) (s : Nat) : Option (Nat × Option Nat × List (Option Nat)) := do
  let (I, S) ← (Object.fresh t b (rateArg t s)).loadCache tokenCodec [] (indexCache t b exText exSA s)
  let (o, t') := I.serializeT numberPrims true S (some []) "index" (fun _ => none)
  let q := ["index" ++ I.type.className]
  return (o.bytes.length, t' q, (I.type.entries I.bv).map (fun e => t' (q ++ [e.key])))

example : exTree .srIndex .sd 2 =
      some (77, some 0, [some 8, some 6, some 47, some 6, some 2, some 0, some 0, some 6, some 2, some 0]) ∧
    exTree .psiValidArea .plain 3 = some (148, some 0,
      [some 6, some 106, some 6, some 2, some 0, some 0, some 6, some 7, some 1, some 5, some 6, some 1, some 2]) := by decide +kernel

-- an index whose storage is empty, filed twice under the same name: the children add up
example : let f := Object.serializeT numberPrims true (Object.fresh .srIndex .sd (some 5)) [] (some ["root"]) "x"
    let t := (f (f (fun _ => none)).2).2
    t ["root", "xsri::SrIndex"] = some 0 ∧ t ["root", "xsri::SrIndex", "subsample_rateunsigned long"] = some 16 ∧
      t ["root", "xsri::SrIndex", "alphabetsdsl::byte_alphabet"] = some 0 ∧ t ["root"] = none := by decide +kernel

example : ∃ I S o tree', (Object.fresh .srCSAValidArea .plain (some 2)).loadCache (codecOf atomCounting.toPrims 64) []
      (indexCache .srCSAValidArea .plain exText exSA 2) = some (I, S) ∧
      I.serializeT atomCounting true S (some []) "index" (fun _ => none) = (o, tree') ∧
      tree' ["indexsri::SrCSAValidArea"] = some 0 ∧ 0 < o.bytes.length :=
  c70_index_node_violation atomCounting (fun _ => by simp [atomCounting, atomPrims]) .srCSAValidArea .plain exText exSA exText_isText exSA_isSA
    (by decide +kernel) 2 (indexCache .srCSAValidArea .plain exText exSA 2)
    ⟨(partsOf .srCSAValidArea exText exSA 2).get (by decide +kernel), by simp, by decide +kernel⟩ [] "index" (fun _ => none) (fun _ _ => rfl)

-- a string of four runs: the node shows its 68 bytes, the bit vectors of the symbols are filed together
example : ∃ S, RLEString.build [2,2,5,1,1,1,2] 2 = some S ∧
    let t := ((RLEObject.ofString .plain S).serializeT numberPrims .plain (some []) "bwt" (fun _ => none)).2
    t ["bwtsri::RLEString"] = some 68 ∧ t ["bwtsri::RLEString", "m_runssri::RLEString"] = some 10 ∧
      t ["bwtsri::RLEString", "m_runs_per_symbolstd::vector<sri::RLEString>"] = some 25 := by
  refine ⟨_, rfl, ?_⟩; decide +kernel

end Sri
