import Verif.Proofs.Storage
/-! # C43: the generic storage -/
namespace Sri
set_option autoImplicit false

/-- a call of `set` or `get` (index_base.h:28-38) -/
inductive StoreCall where
  | set (k : Key) (x : Item)
  | get (ty : ItemType) (k : Key)
deriving DecidableEq

/-- run a history of calls on a storage: what each of them returned (`none` is a null pointer) and the storage at the end -/
def runCalls : List StoreCall → Storage → List (Option Item) × Storage
  | [], S => ([], S)
  | .set k x :: cs, S => let (S', r) := S.set k x; let (rs, S'') := runCalls cs S'; (r :: rs, S'')
  | .get ty k :: cs, S => let (rs, S'') := runCalls cs S; (S.get ty k :: rs, S'')

/-- specification: the value of a key after a history is the one of the first `set` of that key -/
def firstValue (k : Key) : List StoreCall → Option Item
  | [] => none
  | .set k' x :: cs => if k' = k then some x else firstValue k cs
  | .get _ _ :: cs => firstValue k cs

/-- specification: a value is handed out only as a value of its own type -/
def typed (ty : ItemType) (x : Option Item) : Option Item := x.filter (fun x => decide (x.type = ty))

theorem runCalls_find (k : Key) : ∀ (cs : List StoreCall) (S : Storage), (runCalls cs S).2.find k = ((S.find k).or (firstValue k cs))
  | [], S => by simp [runCalls, firstValue]
  | .get ty k' :: cs, S => by simp only [runCalls, firstValue]; exact runCalls_find k cs S
  | .set k' x :: cs, S => by
    simp only [runCalls, firstValue]
    rw [runCalls_find k cs]
    cases h : S.find k' with
    | none =>
      rw [Storage.set_new x h, Storage.find_cons]
      by_cases hk : k = k'
      · subst hk; simp [h]
      · simp [hk, Ne.symm hk]
    | some y =>
      rw [Storage.set_old x h]
      by_cases hk : k' = k
      · subst hk; simp [h]
      · simp [hk]

theorem runCalls_append : ∀ (cs ds : List StoreCall) (S : Storage),
    runCalls (cs ++ ds) S = ((runCalls cs S).1 ++ (runCalls ds (runCalls cs S).2).1, (runCalls ds (runCalls cs S).2).2)
  | [], ds, S => by simp [runCalls]
  | .set k x :: cs, ds, S => by simp only [List.cons_append, runCalls, runCalls_append cs ds]
  | .get ty k :: cs, ds, S => by simp only [List.cons_append, runCalls, runCalls_append cs ds]

/-- **C43**: in every history of calls on a storage that was empty at first, a call of `get` returns the value of the first `set` of its key,
    when there was one and its type is the one asked for, and null otherwise; a call of `set` returns the value that the key has after it, which
    is its own value exactly when there was no earlier `set` of the key, or null when that value has another type; and at the end every key
    has the value of the first `set` of it. -/
theorem c43_storage (cs : List StoreCall) :
    (runCalls cs []).1.length = cs.length ∧
    (∀ (before after : List StoreCall) (ty : ItemType) (k : Key), cs = before ++ .get ty k :: after →
      (runCalls cs []).1[before.length]? = some (typed ty (firstValue k before))) ∧
    (∀ (before after : List StoreCall) (k : Key) (x : Item), cs = before ++ .set k x :: after →
      (runCalls cs []).1[before.length]? = some (typed x.type (firstValue k (before ++ [.set k x])))) ∧
    (∀ k, (runCalls cs []).2.find k = firstValue k cs) := by
  have hlen : ∀ (cs : List StoreCall) (S : Storage), (runCalls cs S).1.length = cs.length := by
    intro cs
    induction cs with
    | nil => intro S; rfl
    | cons c cs ih => intro S; cases c <;> simp [runCalls, ih]
  have hfind : ∀ (cs : List StoreCall) (k : Key), (runCalls cs []).2.find k = firstValue k cs := by
    intro cs k; rw [runCalls_find]; simp [Storage.find]
  refine ⟨hlen _ _, ?_, ?_, hfind cs⟩
  · intro before after ty k h
    subst h
    rw [runCalls_append, List.getElem?_append_right (by rw [hlen]; exact Nat.le_refl _), hlen, Nat.sub_self]
    simp only [runCalls, List.getElem?_cons_zero]
    unfold Storage.get
    rw [hfind]
    cases firstValue k before <;> simp [typed, Option.filter]
  · intro before after k x h
    subst h
    rw [runCalls_append, List.getElem?_append_right (by rw [hlen]; exact Nat.le_refl _), hlen, Nat.sub_self]
    simp only [runCalls, List.getElem?_cons_zero]
    have hf : ∀ bs : List StoreCall, firstValue k (bs ++ [.set k x]) = (firstValue k bs).or (some x) := by
      intro bs
      induction bs with
      | nil => simp [firstValue]
      | cons c bs ih =>
        cases c with
        | get => simpa [firstValue] using ih
        | set k' y => simp only [List.cons_append, firstValue]; split <;> simp [ih]
    rw [hf]
    cases h : firstValue k before with
    | none =>
      rw [← hfind before] at h
      rw [Storage.set_new x h]
      simp [typed, Option.filter]
    | some y =>
      rw [← hfind before] at h
      rw [Storage.set_old x h]
      simp [typed, Option.filter]

-- the second value of a key is not stored; asking for another type gives null
example : runCalls [.set ['a'] (.ints [1]), .set ['a'] (.ints [2]), .get .ints ['a'], .set ['a'] (.sdVector []), .get .sdVector ['a']] [] =
    ([some (.ints [1]), some (.ints [1]), some (.ints [1]), none, none], [(['a'], .ints [1])]) := by decide

end Sri
