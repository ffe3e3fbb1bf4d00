import Verif.Model.SizeTree
import Verif.SpecTree
import Mathlib.Data.List.Induction
import Verif.Proofs.ByteCount
/-! # What the structure tree holds after serialize -/
namespace Sri
set_option autoImplicit false

variable {α : Type}

/-- the size that `l` files under a key -/
def filed (l : List (String × Nat)) (k : String) : Option Nat :=
  if k ∈ l.map (·.1) then some (((l.filter (·.1 = k)).map (·.2)).sum) else none

/-- the size of a node after some bytes have been filed under it -/
def refiled (old : Option Nat) (new : Option Nat) : Option Nat :=
  match new with
  | none => old
  | some n => some (old.getD 0 + n)

theorem filed_append (l₁ l₂ : List (String × Nat)) (k : String) : filed (l₁ ++ l₂) k = refiled (filed l₁ k) (filed l₂ k) := by
  unfold filed refiled
  by_cases h2 : k ∈ l₂.map (·.1)
  · by_cases h1 : k ∈ l₁.map (·.1)
    · simp [h1, h2, List.map_append, List.filter_append]
    · have e : l₁.filter (·.1 = k) = [] := by
        rw [List.filter_eq_nil_iff]
        intro x hx
        simp only [decide_eq_true_eq]
        exact fun h => h1 (List.mem_map.mpr ⟨x, hx, h⟩)
      simp [h1, h2, List.map_append, List.filter_append, e]
  · have e : l₂.filter (·.1 = k) = [] := by
      rw [List.filter_eq_nil_iff]
      intro x hx
      simp only [decide_eq_true_eq]
      exact fun h => h2 (List.mem_map.mpr ⟨x, hx, h⟩)
    by_cases h1 : k ∈ l₁.map (·.1)
    · simp [h1, h2, List.map_append, List.filter_append, e]
    · simp only [List.map_append, List.mem_append, h1, h2, or_self, if_false]

theorem refiled_assoc (a b c : Option Nat) : refiled (refiled a b) c = refiled a (refiled b c) := by
  cases b <;> cases c <;> simp [refiled, Nat.add_assoc]

/-- the call writes and returns `o`, and changes of the tree only what is below the node `q`, to whose children it adds the sizes in `l` -/
structure Filed (q : NodePath) (l : List (String × Nat)) (o : Out α) (f : Filing α) : Prop where
  out : ∀ t, (f t).1 = o
  sum : (l.map (·.2)).sum = o.ret
  outside : ∀ t x, ¬ q <+: x → (f t).2 x = t x
  self : ∀ t m, t q = some m → (f t).2 q = some m
  kids : ∀ t k, (f t).2 (q ++ [k]) = refiled (t (q ++ [k])) (filed l k)

theorem Filed.start (q : NodePath) : Filed q [] .start (Filing.start : Filing α) :=
  ⟨fun _ => rfl, rfl, fun _ _ _ => rfl, fun _ _ h => h, fun _ _ => rfl⟩

theorem Filed.add {q : NodePath} {l₁ l₂ : List (String × Nat)} {o₁ o₂ : Out α} {f g : Filing α} (hf : Filed q l₁ o₁ f) (hg : Filed q l₂ o₂ g) :
    Filed q (l₁ ++ l₂) (o₁.add o₂) (f.add g) where
  out := fun t => by simp only [Filing.add, hf.out, hg.out]
  sum := by rw [List.map_append, List.sum_append, hf.sum, hg.sum]; rfl
  outside := fun t x hx => by show (g (f t).2).2 x = _; rw [hg.outside _ _ hx, hf.outside _ _ hx]
  self := fun t m h => hg.self _ _ (hf.self _ _ h)
  kids := fun t k => by show (g (f t).2).2 _ = _; rw [hg.kids, hf.kids, filed_append, refiled_assoc]

theorem addChild_some (t : SizeTree) (p : NodePath) (name type : String) :
    (t.addChild (some p) name type).1 = some (p ++ [name ++ type]) ∧
      (∀ x, x ≠ p ++ [name ++ type] → (t.addChild (some p) name type).2 x = t x) ∧
      (t.addChild (some p) name type).2 (p ++ [name ++ type]) = some ((t (p ++ [name ++ type])).getD 0) := by
  exact ⟨rfl, fun x hx => if_neg hx, if_pos rfl⟩

theorem ne_of_not_prefix {q x : NodePath} (h : ¬ q <+: x) : x ≠ q := fun e => h (e ▸ List.prefix_refl q)

theorem Filed.node_outside {p : NodePath} {name type : String} {l : List (String × Nat)} {o : Out α} {body : Option NodePath → Filing α}
    (h : Filed (p ++ [name ++ type]) l o (body (some (p ++ [name ++ type])))) {x : NodePath} (hx : ¬ p ++ [name ++ type] <+: x) {t : SizeTree} :
    (Filing.node (some p) name type body t).2 x = t x := by
  obtain ⟨-, h2, -⟩ := addChild_some t p name type
  have e : (Filing.node (some p) name type body t).2 x =
      (body (some (p ++ [name ++ type])) (t.addChild (some p) name type).2).2 x := by
    simp only [Filing.node, SizeTree.addChild, SizeTree.addSize]
    rw [if_neg (ne_of_not_prefix hx)]
  rw [e, h.outside _ _ hx, h2 _ (ne_of_not_prefix hx)]

theorem Filed.node {p : NodePath} {name type : String} {l : List (String × Nat)} {o : Out α} {body : Option NodePath → Filing α}
    (h : Filed (p ++ [name ++ type]) l o (body (some (p ++ [name ++ type])))) :
    Filed p [(name ++ type, o.ret)] o (Filing.node (some p) name type body) := by
  have hq := fun x hx t => h.node_outside (t := t) (x := x) hx
  refine ⟨fun t => h.out _, by simp, fun t x hx => ?_, fun t m hm => ?_, fun t k => ?_⟩
  · exact hq x (fun h' => hx ((List.prefix_append _ _).trans h')) t
  · rw [hq p (fun h' => by have := h'.length_le; simp only [List.length_append, List.length_singleton] at this; omega) t, hm]
  · by_cases hk : k = name ++ type
    · subst hk
      obtain ⟨-, -, h3⟩ := addChild_some t p name type
      have := h.self _ _ h3
      have e : (Filing.node (some p) name type body t).2 (p ++ [name ++ type]) =
          ((body (some (p ++ [name ++ type])) (t.addChild (some p) name type).2).2 (p ++ [name ++ type])).map
            (· + (body (some (p ++ [name ++ type])) (t.addChild (some p) name type).2).1.ret) := by
        exact if_pos rfl
      rw [e, this, h.out]
      simp [filed, refiled]
    · rw [hq _ ?_ t]
      · have : filed [(name ++ type, o.ret)] k = none := by simp [filed, hk]
        rw [this]; rfl
      · intro h'
        have e := h'.eq_of_length (by simp)
        simp only [List.append_cancel_left_eq, List.cons.injEq, and_true] at e
        exact hk e.symm

/-- a call that files a node of its own for what it writes, with children for the parts of that -/
structure NodeFiled (p : NodePath) (name type : String) (o : Out α) (f : Filing α) : Prop where
  filed : Filed p [(name ++ type, o.ret)] o f
  outside : ∀ t x, ¬ p ++ [name ++ type] <+: x → (f t).2 x = t x
  parts : ∃ l : List (String × Nat), (l.map (·.2)).sum = o.ret ∧
    ∀ t k, (f t).2 (p ++ [name ++ type] ++ [k]) = refiled (t (p ++ [name ++ type] ++ [k])) (Sri.filed l k)

theorem Filed.nodeFiled {p : NodePath} {name type : String} {l : List (String × Nat)} {o : Out α} {body : Option NodePath → Filing α}
    (h : Filed (p ++ [name ++ type]) l o (body (some (p ++ [name ++ type])))) : NodeFiled p name type o (Filing.node (some p) name type body) := by
  refine ⟨h.node, fun t x hx => h.node_outside hx, l, h.sum, fun t k => ?_⟩
  have hne : p ++ [name ++ type] ++ [k] ≠ p ++ [name ++ type] := fun h' => by have := congrArg List.length h'; simp at this
  have e : (Filing.node (some p) name type body t).2 (p ++ [name ++ type] ++ [k]) =
      (body (some (p ++ [name ++ type])) (t.addChild (some p) name type).2).2 (p ++ [name ++ type] ++ [k]) := by
    simp only [Filing.node, SizeTree.addChild, SizeTree.addSize]
    rw [if_neg hne]
  rw [e, h.kids, (addChild_some t p name type).2.1 _ hne]

theorem Filed.leaf (p : NodePath) (name type : String) (o : Out α) : Filed p [(name ++ type, o.ret)] o (Filing.leaf o type (some p) name) := by
  refine ⟨fun t => rfl, by simp, fun t x hx => ?_, fun t m hm => ?_, fun t k => ?_⟩
  · obtain ⟨-, h2, -⟩ := addChild_some t p name type
    have hx' : ¬ p ++ [name ++ type] <+: x := fun h' => hx ((List.prefix_append _ _).trans h')
    have := h2 x (ne_of_not_prefix hx')
    simp only [Filing.leaf, Filing.node, SizeTree.addSize, SizeTree.addChild] at this ⊢
    rw [if_neg (ne_of_not_prefix hx'), this]
  · obtain ⟨-, h2, -⟩ := addChild_some t p name type
    have hx' : p ≠ p ++ [name ++ type] := fun h' => by have := congrArg List.length h'; simp at this
    have := h2 p hx'
    simp only [Filing.leaf, Filing.node, SizeTree.addSize, SizeTree.addChild] at this ⊢
    rw [if_neg hx', this, hm]
  · obtain ⟨-, h2, h3⟩ := addChild_some t p name type
    by_cases hk : k = name ++ type
    · subst hk
      simp [Filing.leaf, Filing.node, SizeTree.addSize, SizeTree.addChild, filed, refiled]
    · have hx' : p ++ [k] ≠ p ++ [name ++ type] := fun h' => hk (by simpa using h')
      have := h2 _ hx'
      simp only [Filing.leaf, Filing.node, SizeTree.addSize, SizeTree.addChild] at this ⊢
      rw [if_neg hx', this]
      have : filed [(name ++ type, o.ret)] k = none := by simp [filed, hk]
      rw [this]; rfl

theorem Filed.cast {q : NodePath} {l l' : List (String × Nat)} {o o' : Out α} {f : Filing α} (h : Filed q l o f) (hl : l = l') (ho : o = o') :
    Filed q l' o' f := hl ▸ ho ▸ h

/-- the tree is left alone for `nullptr` -/
def Silent (o : Out α) (f : Filing α) : Prop := ∀ t, f t = (o, t)

theorem Silent.start : Silent .start (Filing.start : Filing α) := fun _ => rfl

theorem Silent.add {o₁ o₂ : Out α} {f g : Filing α} (hf : Silent o₁ f) (hg : Silent o₂ g) : Silent (o₁.add o₂) (f.add g) := by
  intro t
  simp only [Filing.add, hf t, hg t]

theorem Silent.node {name type : String} {o : Out α} {body : Option NodePath → Filing α} (h : Silent o (body none)) :
    Silent o (Filing.node none name type body) := by
  intro t
  simp only [Filing.node, SizeTree.addChild, SizeTree.addSize, h t]

theorem Silent.leaf (name type : String) (o : Out α) : Silent o (Filing.leaf o type none name) := Silent.node (fun _ => rfl)

variable {A : CountingPrims α}

/-! ## Vectors -/

theorem filed_foldl {β : Type} {q : NodePath} {e : β → Out α} {f : β → Filing α} {g : β → List (String × Nat)} (h : ∀ x, Filed q (g x) (e x) (f x)) :
    ∀ (l : List β) {l₀ : List (String × Nat)} {o : Out α} {f₀ : Filing α}, Filed q l₀ o f₀ →
      Filed q (l₀ ++ l.flatMap g) (l.foldl (fun o x => o.add (e x)) o) (l.foldl (fun w x => w.add (f x)) f₀)
  | [], l₀, o, f₀, h₀ => by simpa using h₀
  | x :: l, l₀, o, f₀, h₀ => by
    rw [List.flatMap_cons, ← List.append_assoc]
    exact filed_foldl h l (h₀.add (h x))

theorem Out.add_start (o : Out α) : o.add .start = o := by simp [Out.add, Out.start]
theorem Out.start_add (o : Out α) : Out.start.add o = o := by simp [Out.add, Out.start]

theorem filed_vec {β : Type} (p : NodePath) (name cls : String) {e : β → Out α} {f : β → Option NodePath → String → Filing α}
    {g : β → List (String × Nat)} (h : ∀ q x, Filed q (g x) (e x) (f x (some q) "[]")) (l : List β) :
    ∃ r, Filed p r (A.vec e l) (A.vecT cls f l (some p) name) := by
  cases l with
  | nil => exact ⟨_, (Filed.leaf p name _ _).add (Filed.start p)⟩
  | cons x l =>
    exact ⟨_, (Filed.leaf p name _ _).add (Filed.node (filed_foldl (fun y => h _ y) (x :: l) (Filed.start _)))⟩

theorem silent_vec {β : Type} (name cls : String) {e : β → Out α} {f : β → Option NodePath → String → Filing α}
    (h : ∀ x, Silent (e x) (f x none "[]")) (l : List β) : Silent (A.vec e l) (A.vecT cls f l none name) := by
  have hf : ∀ (l : List β) {o : Out α} {f₀ : Filing α}, Silent o f₀ →
      Silent (l.foldl (fun o x => o.add (e x)) o) (l.foldl (fun w x => w.add (f x none "[]")) f₀) := by
    intro l
    induction l with
    | nil => exact fun h => h
    | cons x l ih => exact fun h₀ => ih (h₀.add (h x))
  cases l with
  | nil => exact (Silent.leaf name _ _).add Silent.start
  | cons x l => exact (Silent.leaf name _ _).add (Silent.node (hf (x :: l) Silent.start))

/-! ## The structures: bodies and nodes -/

theorem filed_bv (p : NodePath) (name : String) (b : BvKind) (x : List Bool) : ∃ r, Filed p r (A.bv b x) (A.bvT b x (some p) name) := by
  cases b <;> exact ⟨_, Filed.leaf p name _ _⟩

theorem silent_bv (name : String) (b : BvKind) (x : List Bool) : Silent (A.bv b x) (A.bvT b x none name) := by
  cases b <;> exact fun _ => rfl

theorem filed_bv_one (p : NodePath) (b : BvKind) (name : String) (x : List Bool) :
    Filed p [(name ++ (match b with | .sd => "sdsl::sd_vector" | .plain => "sdsl::int_vector"), (A.bv b x).ret)] (A.bv b x)
      (A.bvT b x (some p) name) := by
  cases b <;> exact Filed.leaf p name _ _

theorem BVObject.nodeFiled (p : NodePath) (name : String) (b : BvKind) (x : BVObject) :
    NodeFiled p name "sri::RLEString" (x.serializeC A b) (x.serializeT A b (some p) name) := by
  obtain ⟨_, h1⟩ := filed_bv (A := A) (p ++ [name ++ "sri::RLEString"]) "data" b x.data
  exact Filed.nodeFiled ((((Filed.start _).add h1).add (Filed.leaf _ _ _ _)).add (Filed.leaf _ _ _ _))

theorem BVObject.filed (p : NodePath) (name : String) (b : BvKind) (x : BVObject) :
    Filed p [(name ++ "sri::RLEString", (x.serializeC A b).ret)] (x.serializeC A b) (x.serializeT A b (some p) name) :=
  (BVObject.nodeFiled p name b x).filed

theorem BVObject.silent (name : String) (b : BvKind) (x : BVObject) : Silent (x.serializeC A b) (x.serializeT A b none name) :=
  Silent.node (((Silent.start.add (silent_bv _ _ _)).add (Silent.leaf _ _ _)).add (Silent.leaf _ _ _))

theorem RLEObject.nodeFiled (p : NodePath) (name : String) (b : BvKind) (x : RLEObject) :
    NodeFiled p name "sri::RLEString" (x.serializeC A b) (x.serializeT A b (some p) name) := by
  obtain ⟨_, h1⟩ := filed_vec (A := A) (p ++ [name ++ "sri::RLEString"]) "m_runs_per_symbol" "sri::RLEString"
    (f := (·.serializeT A b)) (fun q y => BVObject.filed (A := A) q "[]" b y) x.perSym
  exact Filed.nodeFiled ((((((Filed.start _).add (Filed.leaf _ _ _ _)).add (Filed.leaf _ _ _ _)).add (Filed.leaf _ _ _ _)).add
    (BVObject.filed _ _ b x.runs)).add h1)

theorem RLEObject.filed (p : NodePath) (name : String) (b : BvKind) (x : RLEObject) :
    Filed p [(name ++ "sri::RLEString", (x.serializeC A b).ret)] (x.serializeC A b) (x.serializeT A b (some p) name) :=
  (RLEObject.nodeFiled p name b x).filed

theorem RLEObject.silent (name : String) (b : BvKind) (x : RLEObject) : Silent (x.serializeC A b) (x.serializeT A b none name) :=
  Silent.node (((((Silent.start.add (Silent.leaf _ _ _)).add (Silent.leaf _ _ _)).add (Silent.leaf _ _ _)).add
    (BVObject.silent _ b x.runs)).add (silent_vec _ _ (fun y => BVObject.silent "[]" b y) x.perSym))

theorem EncVector.nodeFiled (p : NodePath) (name : String) (E : EncVector) :
    NodeFiled p name "sri::enc_vector" (E.serializeC A) (E.serializeT A (some p) name) :=
  Filed.nodeFiled ((((Filed.start _).add (Filed.leaf _ _ _ _)).add (Filed.leaf _ _ _ _)).add (Filed.leaf _ _ _ _))

theorem EncVector.filed (p : NodePath) (name : String) (E : EncVector) :
    Filed p [(name ++ "sri::enc_vector", (E.serializeC A).ret)] (E.serializeC A) (E.serializeT A (some p) name) :=
  (EncVector.nodeFiled p name E).filed

theorem EncVector.silent (name : String) (E : EncVector) : Silent (E.serializeC A) (E.serializeT A none name) :=
  Silent.node (((Silent.start.add (Silent.leaf _ _ _)).add (Silent.leaf _ _ _)).add (Silent.leaf _ _ _))

theorem filed_pair (left : Bool) {q : NodePath} {l₁ l₂ : List (String × Nat)} {o₁ o₂ : Out α} {f g : Filing α} (hf : Filed q l₁ o₁ f)
    (hg : Filed q l₂ o₂ g) : Filed q (if left then l₁ ++ l₂ else l₂ ++ l₁) (pairSerialize left o₁ o₂) (pairSerializeT left f g) := by
  cases left with
  | true =>
    have h := hf.add hg
    exact ⟨fun t => by simp only [pairSerializeT, if_true, hf.out, hg.out], by simpa [pairSerialize, Out.add] using h.sum,
      fun t => h.outside t, fun t => h.self t, fun t => h.kids t⟩
  | false =>
    have h := hg.add hf
    refine ⟨fun t => by simp only [pairSerializeT, Bool.false_eq_true, if_false, hf.out, hg.out], ?_, fun t => h.outside t, fun t => h.self t,
      fun t => h.kids t⟩
    have := h.sum
    simp only [Out.add] at this
    show _ = o₁.ret + o₂.ret
    rw [if_neg (by decide), this, Nat.add_comm]

theorem PsiCoreRLE.nodeFiled (left : Bool) (p : NodePath) (name : String) (P : PsiCoreRLE) :
    NodeFiled p name "sri::PsiCoreRLE" (P.serializeC A left) (P.serializeT A left (some p) name) := by
  obtain ⟨_, h1⟩ := filed_vec (A := A) (p ++ [name ++ "sri::PsiCoreRLE"]) "m_partial_psi" "std::pair"
    (f := fun q v name => pairSerializeT left (q.1.serializeT A v name) (A.intsT q.2 v name))
    (fun q y => filed_pair left (EncVector.filed q "[]" y.1) (Filed.leaf q "[]" _ (A.ints y.2))) P.parts
  exact Filed.nodeFiled ((((Filed.start _).add (Filed.leaf _ _ _ _)).add (Filed.leaf _ _ _ _)).add h1)

theorem PsiCoreRLE.filed (left : Bool) (p : NodePath) (name : String) (P : PsiCoreRLE) :
    Filed p [(name ++ "sri::PsiCoreRLE", (P.serializeC A left).ret)] (P.serializeC A left) (P.serializeT A left (some p) name) :=
  (PsiCoreRLE.nodeFiled left p name P).filed

theorem silent_pair (left : Bool) {o₁ o₂ : Out α} {f g : Filing α} (hf : Silent o₁ f) (hg : Silent o₂ g) :
    Silent (pairSerialize left o₁ o₂) (pairSerializeT left f g) := by
  intro t
  cases left <;> simp only [pairSerializeT, hf _, hg _, Bool.false_eq_true, if_true, if_false]

theorem PsiCoreRLE.silent (left : Bool) (name : String) (P : PsiCoreRLE) : Silent (P.serializeC A left) (P.serializeT A left none name) := by
  have h := silent_vec (A := A) "m_partial_psi" "std::pair"
    (f := fun q v name => pairSerializeT left (q.1.serializeT A v name) (A.intsT q.2 v name))
    (e := fun q => pairSerialize left (q.1.serializeC A) (A.ints q.2))
    (fun y => silent_pair left (EncVector.silent "[]" y.1) (Silent.leaf "[]" "sdsl::int_vector" (A.ints y.2))) P.parts
  exact Silent.node (((Silent.start.add (Silent.leaf "m_n" "unsigned long" (A.size P.n))).add
    (Silent.leaf "m_first_bwt_symbol" "unsigned long" (A.size P.first))).add h)

theorem PsiBVObject.nodeFiled (p : NodePath) (name : String) (b : BvKind) (x : PsiBVObject) :
    NodeFiled p name "sri::PsiCoreBV" (x.serializeC A b) (x.serializeT A b (some p) name) := by
  obtain ⟨_, h1⟩ := filed_vec (A := A) (p ++ [name ++ "sri::PsiCoreBV"]) "m_partial_psi"
    (match b with | .sd => "sdsl::sd_vector" | .plain => "sdsl::int_vector") (f := A.bvT b) (fun q y => filed_bv_one q b "[]" y) x.parts
  obtain ⟨_, h2⟩ := filed_vec (A := A) (p ++ [name ++ "sri::PsiCoreBV"]) "m_rank_partial_psi" (CountingPrims.supportName b .rank1)
    (f := A.supportT b .rank1) (fun q y => Filed.leaf q "[]" _ (A.supportOf b .rank1 y)) x.ranks
  obtain ⟨_, h3⟩ := filed_vec (A := A) (p ++ [name ++ "sri::PsiCoreBV"]) "m_select_partial_psi" (CountingPrims.supportName b .select1)
    (f := A.supportT b .select1) (fun q y => Filed.leaf q "[]" _ (A.supportOf b .select1 y)) x.selects
  exact Filed.nodeFiled ((((((Filed.start _).add (Filed.leaf _ _ _ _)).add (Filed.leaf _ _ _ _)).add h1).add h2).add h3)

theorem PsiBVObject.filed (p : NodePath) (name : String) (b : BvKind) (x : PsiBVObject) :
    Filed p [(name ++ "sri::PsiCoreBV", (x.serializeC A b).ret)] (x.serializeC A b) (x.serializeT A b (some p) name) :=
  (PsiBVObject.nodeFiled p name b x).filed

theorem PsiBVObject.silent (name : String) (b : BvKind) (x : PsiBVObject) : Silent (x.serializeC A b) (x.serializeT A b none name) :=
  Silent.node (((((Silent.start.add (Silent.leaf _ _ _)).add (Silent.leaf _ _ _)).add
    (silent_vec _ _ (fun y => silent_bv "[]" b y) x.parts)).add
    (silent_vec _ _ (fun y => Silent.leaf "[]" _ (A.supportOf b .rank1 y)) x.ranks)).add
    (silent_vec _ _ (fun y => Silent.leaf "[]" _ (A.supportOf b .select1 y)) x.selects))

/-! ## Items and indexes -/

theorem Item.filed (left : Bool) (p : NodePath) (name : String) (x : Item) :
    Filed p [(name ++ x.type.className, (x.serializeC A left).ret)] (x.serializeC A left) (x.serializeT A left (some p) name) := by
  cases x with
  | bwtRle S => exact RLEObject.filed p name .sd _
  | psi P => exact PsiCoreRLE.filed left p name P
  | _ => exact Filed.leaf p name _ _

theorem Item.silent (left : Bool) (name : String) (x : Item) : Silent (x.serializeC A left) (x.serializeT A left none name) := by
  cases x with
  | bwtRle S => exact RLEObject.silent name .sd _
  | psi P => exact PsiCoreRLE.silent left name P
  | _ => exact fun _ => rfl

/-- the key of the child of an entry: its name and its class -/
def TreeEntry.key : TreeEntry → String
  | .rate => "subsample_rate" ++ "unsigned long"
  | .item name _ _ ty => name ++ ty.className

/-- what the entry adds to a stream: the item itself when the storage of the index holds it -/
def Object.entryBytes (A : CountingPrims α) (left : Bool) (I : Object) (S : Storage) : TreeEntry → List α
  | .rate => A.encSize I.rate
  | .item _ slot part ty =>
    match S.get ty (I.keys slot ++ part.suffix) with
    | some x => (x.serializeC A left).bytes
    | none => []

namespace Object
variable {A : CountingPrims α} {left : Bool} {I : Object} {S : Storage}

def entryC (A : CountingPrims α) (left : Bool) (I : Object) (S : Storage) : TreeEntry → Out α
  | .rate => A.size I.rate
  | .item _ slot part ty => I.itemC A left S slot part ty

def entryParts (A : CountingPrims α) (left : Bool) (I : Object) (S : Storage) (es : List TreeEntry) : List (String × Nat) :=
  es.map (fun e => (e.key, (I.entryC A left S e).ret))

theorem entryC_bytes (e : TreeEntry) : (I.entryC A left S e).bytes = I.entryBytes A left S e := by
  cases e with
  | rate => rfl
  | item name slot part ty =>
    simp only [entryC, entryBytes, itemC]
    cases S.get ty (I.keys slot ++ part.suffix) <;> rfl

theorem itemT_filed (q : NodePath) (slot : Slot) (part : Part) (ty : ItemType) (name : String) :
    Filed q (I.entryParts A left S [.item name slot part ty]) (I.itemC A left S slot part ty)
      (I.itemT A left S slot part ty (some q) name) := by
  simp only [entryParts, List.map_cons, List.map_nil, TreeEntry.key, entryC, itemC, itemT]
  cases h : S.get ty (I.keys slot ++ part.suffix) with
  | none => exact Filed.leaf q name _ _
  | some x =>
    have ht : x.type = ty := by
      simp only [Storage.get] at h
      split at h
      · split at h
        · next h' => cases h; exact h'
        · cases h
      · cases h
    rw [← ht]
    exact Item.filed left q name x

theorem itemT_silent (slot : Slot) (part : Part) (ty : ItemType) (name : String) :
    Silent (I.itemC A left S slot part ty) (I.itemT A left S slot part ty none name) := by
  simp only [itemC, itemT]
  cases S.get ty (I.keys slot ++ part.suffix) with
  | none => exact Silent.leaf _ _ _
  | some x => exact Item.silent left name x

theorem rateT_filed (q : NodePath) : Filed q (I.entryParts A left S [.rate]) (A.size I.rate) (A.sizeT I.rate (some q) "subsample_rate") :=
  Filed.leaf q _ _ _

/-- the node of an index below `p` -/
def nodeOf (I : Object) (p : NodePath) (name : String) : NodePath := p ++ [name ++ I.type.className]

theorem entered_filed {p : NodePath} {name : String} {l : List (String × Nat)} {o : Out α} {body : Option NodePath → Filing α}
    (h : Filed (I.nodeOf p name) l o (body (some (I.nodeOf p name)))) : Filed (I.nodeOf p name) l o (I.entered (some p) name body) := by
  have h2 : ∀ t : SizeTree, ∀ x, x ≠ I.nodeOf p name → (t.addChild (some p) name I.type.className).2 x = t x :=
    fun t => (addChild_some t p name I.type.className).2.1
  refine ⟨fun t => h.out _, h.sum, fun t x hx => ?_, fun t m hm => ?_, fun t k => ?_⟩
  · exact (h.outside _ _ hx).trans (h2 _ _ (ne_of_not_prefix hx))
  · refine h.self _ _ ?_
    have := (addChild_some t p name I.type.className).2.2
    rw [show t (p ++ [name ++ I.type.className]) = some m from hm] at this
    exact this
  · have := h2 t (I.nodeOf p name ++ [k]) (fun h' => by have := congrArg List.length h'; simp at this)
    refine (h.kids _ _).trans ?_
    exact congrArg (refiled · _) this

theorem entered_node {p : NodePath} {name : String} {l : List (String × Nat)} {o : Out α} {body : Option NodePath → Filing α}
    (h : Filed (I.nodeOf p name) l o (body (some (I.nodeOf p name)))) (t : SizeTree) :
    (I.entered (some p) name body t).2 (I.nodeOf p name) = some ((t (I.nodeOf p name)).getD 0) :=
  h.self _ _ (addChild_some t p name I.type.className).2.2

theorem entered_silent {name : String} {o : Out α} {body : Option NodePath → Filing α} (h : Silent o (body none)) :
    Silent o (I.entered none name body) := fun t => h t

/-- a serialize of a class of indexes -/
structure ClassFiled (A : CountingPrims α) (left : Bool) (I : Object) (S : Storage) (es : List TreeEntry) (o : Out α)
    (f : Option NodePath → String → Filing α) : Prop where
  filed : ∀ p name, Filed (I.nodeOf p name) (I.entryParts A left S es) o (f (some p) name)
  node : ∀ p name t, (f (some p) name t).2 (I.nodeOf p name) = some ((t (I.nodeOf p name)).getD 0)
  silent : ∀ name, Silent o (f none name)

theorem classFiled {es : List TreeEntry} {o : Out α} {body : Option NodePath → String → Option NodePath → Filing α}
    (h : ∀ p name, Filed (I.nodeOf p name) (I.entryParts A left S es) o (body (some p) name (some (I.nodeOf p name))))
    (hs : ∀ name, Silent o (body none name none)) : ClassFiled A left I S es o (fun v name => I.entered v name (body v name)) :=
  ⟨fun p name => entered_filed (h p name), fun p name t => entered_node (h p name) t, fun name => entered_silent (hs name)⟩

theorem rIndexT_class : ClassFiled A left I S (IndexType.entries .rIndex I.bv) (I.rIndexC A left S) (I.rIndexT A left S) :=
  classFiled (body := fun _ _ _ => _)
    (fun _ _ => (((((((Filed.start _).add (itemT_filed _ _ _ _ _)).add (itemT_filed _ _ _ _ _)).add (itemT_filed _ _ _ _ _)).add
      (itemT_filed _ _ _ _ _)).add (itemT_filed _ _ _ _ _)).add (itemT_filed _ _ _ _ _)).add (itemT_filed _ _ _ _ _))
    (fun _ => ((((((Silent.start.add (itemT_silent _ _ _ _)).add (itemT_silent _ _ _ _)).add (itemT_silent _ _ _ _)).add
      (itemT_silent _ _ _ _)).add (itemT_silent _ _ _ _)).add (itemT_silent _ _ _ _)).add (itemT_silent _ _ _ _))

theorem rcsaT_class : ClassFiled A left I S (IndexType.entries .rcsaWithBWTRun I.bv) (I.rcsaC A left S) (I.rcsaT A left S) :=
  classFiled (body := fun _ _ _ => _)
    (fun _ _ => (((((((Filed.start _).add (itemT_filed _ _ _ _ _)).add (itemT_filed _ _ _ _ _)).add (itemT_filed _ _ _ _ _)).add
      (itemT_filed _ _ _ _ _)).add (itemT_filed _ _ _ _ _)).add (itemT_filed _ _ _ _ _)).add (itemT_filed _ _ _ _ _))
    (fun _ => ((((((Silent.start.add (itemT_silent _ _ _ _)).add (itemT_silent _ _ _ _)).add (itemT_silent _ _ _ _)).add
      (itemT_silent _ _ _ _)).add (itemT_silent _ _ _ _)).add (itemT_silent _ _ _ _)).add (itemT_silent _ _ _ _))

theorem srIndexT_class : ClassFiled A left I S (IndexType.entries .srIndex I.bv) (I.srIndexC A left S) (I.srIndexT A left S) :=
  classFiled (body := fun _ _ _ => _)
    (fun p name => ((((Filed.start _).add (rateT_filed _)).add (rIndexT_class.filed p name)).add (itemT_filed _ _ _ _ _)).add
      (itemT_filed _ _ _ _ _))
    (fun name => (((Silent.start.add (Silent.leaf _ _ _)).add (rIndexT_class.silent name)).add (itemT_silent _ _ _ _)).add (itemT_silent _ _ _ _))

theorem srCSABaseT_class : ClassFiled A left I S (.rate :: IndexType.entries .rcsaWithBWTRun I.bv) (I.srCSABaseC A left S) (I.srCSABaseT A left S) :=
  classFiled (body := fun _ _ _ => _)
    (fun p name => ((Filed.start _).add (rateT_filed _)).add (rcsaT_class.filed p name))
    (fun name => (Silent.start.add (Silent.leaf _ _ _)).add (rcsaT_class.silent name))

theorem srCSAT_class : ClassFiled A left I S (IndexType.entries .srCSA I.bv) (I.srCSAC A left S) (I.srCSAT A left S) :=
  classFiled (body := fun _ _ _ => _)
    (fun p name => ((((Filed.start _).add (srCSABaseT_class.filed p name)).add (itemT_filed _ _ _ _ _)).add
      (itemT_filed _ _ _ _ _)).add (itemT_filed _ _ _ _ _))
    (fun name => (((Silent.start.add (srCSABaseT_class.silent name)).add (itemT_silent _ _ _ _)).add (itemT_silent _ _ _ _)).add
      (itemT_silent _ _ _ _))

theorem slimT_class {es : List TreeEntry} {o : Out α} {f : Option NodePath → String → Filing α} (hf : ClassFiled A left I S es o f) :
    ClassFiled A left I S (es ++ [.item "samples_idx" .samplesIdx .self I.bv.ty, .item "samples_idx_rank" .samplesIdx .rank I.bv.rankTy,
      .item "run_cumulative_count" .runCumulativeCount .self .ints]) (I.slimC A left S o) (I.slimT A left S f) :=
  classFiled (body := fun _ _ _ => _)
    (fun p name => (((((Filed.start _).add (hf.filed p name)).add (itemT_filed _ _ _ _ _)).add
      (itemT_filed _ _ _ _ _)).add (itemT_filed _ _ _ _ _)).cast (by simp [entryParts]) rfl)
    (fun name => (((Silent.start.add (hf.silent name)).add (itemT_silent _ _ _ _)).add (itemT_silent _ _ _ _)).add
      (itemT_silent _ _ _ _))

theorem validMarkT_class {es : List TreeEntry} {o : Out α} {f : Option NodePath → String → Filing α} (hf : ClassFiled A left I S es o f) :
    ClassFiled A left I S (es ++ [.item "valid_marks" .validMarks .self .bitVector]) (I.validMarkC A left S o) (I.validMarkT A left S f) :=
  classFiled (body := fun _ _ _ => _)
    (fun p name => ((hf.filed p name).add (itemT_filed _ _ _ _ _)).cast (by simp [entryParts]) rfl)
    (fun name => (hf.silent name).add (itemT_silent _ _ _ _))

theorem validAreaT_class {es : List TreeEntry} {o : Out α} {f : Option NodePath → String → Filing α} (hf : ClassFiled A left I S es o f) :
    ClassFiled A left I S (es ++ [.item "valid_marks_rank" .validMarks .rank .bitRank0, .item "valid_areas" .validAreas .self .ints])
      (I.validAreaC A left S o) (I.validAreaT A left S f) :=
  classFiled (body := fun _ _ _ => _)
    (fun p name => (((hf.filed p name).add (itemT_filed _ _ _ _ _)).add (itemT_filed _ _ _ _ _)).cast (by simp [entryParts]) rfl)
    (fun name => ((hf.silent name).add (itemT_silent _ _ _ _)).add (itemT_silent _ _ _ _))

end Object

/-! ## Sums -/

theorem sum_update (ks : List String) (hn : ks.Nodup) (f g : String → Nat) (k : String) (n : Nat) (hk : k ∈ ks) (hg : g k = f k + n)
    (ho : ∀ j ∈ ks, j ≠ k → g j = f j) : (ks.map g).sum = (ks.map f).sum + n := by
  induction ks with
  | nil => cases hk
  | cons a ks ih =>
    obtain ⟨ha, hn'⟩ := List.nodup_cons.mp hn
    simp only [List.map_cons, List.sum_cons]
    by_cases e : a = k
    · subst e
      have : ks.map g = ks.map f := List.map_congr_left (fun j hj => ho j (List.mem_cons_of_mem _ hj) (fun h => ha (h ▸ hj)))
      rw [this, hg]; omega
    · have hk' : k ∈ ks := (List.mem_cons.mp hk).resolve_left (fun h => e h.symm)
      rw [ih hn' hk' (fun j hj => ho j (List.mem_cons_of_mem _ hj)), ho a List.mem_cons_self e]; omega

theorem filed_sum (l : List (String × Nat)) : ∃ ks : List String, ks.Nodup ∧ (∀ k, filed l k ≠ none ↔ k ∈ ks) ∧
    (ks.map (fun k => (filed l k).getD 0)).sum = (l.map (·.2)).sum := by
  induction l using List.reverseRecOn with
  | nil => exact ⟨[], List.nodup_nil, fun k => by simp [filed], rfl⟩
  | append_singleton l x ih =>
    obtain ⟨ks, h1, h2, h3⟩ := ih
    obtain ⟨a, n⟩ := x
    have hself : filed [(a, n)] a = some n := by simp [filed]
    have hoth : ∀ k, k ≠ a → filed [(a, n)] k = none := fun k hk => by simp [filed, hk]
    have hka : ∀ k, k ≠ a → filed (l ++ [(a, n)]) k = filed l k := fun k hk => by rw [filed_append, hoth k hk]; rfl
    have haa : filed (l ++ [(a, n)]) a = some ((filed l a).getD 0 + n) := by rw [filed_append, hself]; rfl
    by_cases ha : a ∈ ks
    · refine ⟨ks, h1, fun k => ?_, ?_⟩
      · by_cases e : k = a
        · subst e; rw [haa]; simp [ha]
        · rw [hka k e]; exact h2 k
      · rw [sum_update ks h1 (fun k => (filed l k).getD 0) _ a n ha (by simp only [haa, Option.getD_some])
          (fun j _ hj => by simp only [hka j hj]), h3]
        simp
    · refine ⟨a :: ks, List.nodup_cons.mpr ⟨ha, h1⟩, fun k => ?_, ?_⟩
      · by_cases e : k = a
        · subst e; rw [haa]; simp
        · rw [hka k e, h2 k]; simp [e]
      · have hnone : filed l a = none := by
          cases h : filed l a with
          | none => rfl
          | some m => exact absurd ((h2 a).mp (by rw [h]; simp)) ha
        have : ks.map (fun k => (filed (l ++ [(a, n)]) k).getD 0) = ks.map (fun k => (filed l k).getD 0) :=
          List.map_congr_left (fun j hj => by rw [hka j (fun h => ha (h ▸ hj))])
        rw [List.map_cons, List.sum_cons, this, h3, haa, hnone]
        simp [Nat.add_comm]

theorem filed_nodup {l : List (String × Nat)} {k : String} {n : Nat} (hn : (l.map (·.1)).Nodup) (h : (k, n) ∈ l) : filed l k = some n := by
  induction l with
  | nil => cases h
  | cons x l ih =>
    obtain ⟨hx, hn'⟩ := List.nodup_cons.mp hn
    rw [show x :: l = [x] ++ l from rfl, filed_append]
    rcases List.mem_cons.mp h with e | h'
    · have : filed l k = none := by
        unfold filed
        rw [if_neg]
        exact fun h => hx (by rw [← e]; exact h)
      rw [this, ← e]
      simp [filed, refiled]
    · have hk : k ≠ x.1 := fun e => hx (List.mem_map.mpr ⟨_, h', e⟩)
      have : filed [x] k = none := by simp [filed, hk]
      rw [ih hn' h', this]
      simp [refiled]

theorem Object.entryC_honest (hA : A.Reports) {left : Bool} {I : Object} {S : Storage} (e : TreeEntry) :
    (I.entryC A left S e).ret = (I.entryC A left S e).bytes.length := by
  cases e with
  | rate => exact CountingPrims.honest_size hA _
  | item name slot part ty => exact Object.honest_itemC hA left I S slot part ty

end Sri
