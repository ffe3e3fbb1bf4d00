import Verif.Model.AllIndexes
import Verif.Props.SrIndex
import Verif.Props.SrCSA
/-! # All index types side by side -/
namespace Sri
set_option autoImplicit false

/-- the indexes whose samples are text positions of run ends report downwards -/
def IndexType.backward : IndexType → Bool
  | .rIndex | .srIndex | .srIndexValidMark | .srIndexValidArea => true
  | _ => false

theorem buildIndex_exact (t : IndexType) {T sa : List Nat} (hT : IsText T) (hsa : IsSA T sa) (hn : T.length < 2^64) (s : Nat) :
    ∃ q, buildIndex t T sa s = some q ∧ Exact q.count q.locate T sa (if t.backward then List.reverse else id) := by
  cases t
  case rIndex => obtain ⟨I, hb, h⟩ := rindex_exact hT hsa; exact ⟨⟨I.count, I.locate⟩, by simp [buildIndex, hb], h⟩
  case srIndex => obtain ⟨I, hb, h⟩ := srindex_exact hT hsa s; exact ⟨⟨I.count, I.locate⟩, by simp [buildIndex, hb], h⟩
  case srIndexValidMark => obtain ⟨I, hb, h⟩ := validmark_exact hT hsa s; exact ⟨⟨I.countMark, I.locateMark⟩, by simp [buildIndex, hb], h⟩
  case srIndexValidArea => obtain ⟨I, hb, h⟩ := validarea_exact hT hsa s; exact ⟨⟨I.countArea, I.locateArea⟩, by simp [buildIndex, hb], h⟩
  case rcsaWithBWTRun => obtain ⟨I, hb, h⟩ := rcsabwt_exact hT hsa hn; exact ⟨⟨RCSABwt.count I, RCSABwt.locate I⟩, by simp [buildIndex, hb], h⟩
  case rcsaWithPsiRun => obtain ⟨I, hb, h⟩ := rcsapsi_exact hT hsa hn; exact ⟨⟨RCSAPsi.count I, RCSAPsi.locate I⟩, by simp [buildIndex, hb], h⟩
  case srCSA => obtain ⟨I, hb, h⟩ := srcsa_answers hT hsa hn s; exact ⟨⟨I.count, I.locate⟩, by simp [buildIndex, hb], h.exact⟩
  case srCSASlim => obtain ⟨I, hb, h⟩ := srcsaslim_answers hT hsa hn s; exact ⟨⟨I.countSlim, I.locateSlim⟩, by simp [buildIndex, hb], h.exact⟩
  case srCSAValidMark => obtain ⟨I, hb, h⟩ := srcsamark_answers hT hsa hn s; exact ⟨⟨I.countMark, I.locateMark⟩, by simp [buildIndex, hb], h.exact⟩
  case srCSAValidArea => obtain ⟨I, hb, h⟩ := srcsaarea_answers hT hsa hn s; exact ⟨⟨I.countArea, I.locateArea⟩, by simp [buildIndex, hb], h.exact⟩
  case srCSASlimValidMark => obtain ⟨I, hb, h⟩ := srcsaslimmark_answers hT hsa hn s; exact ⟨⟨I.countMarkSlim, I.locateMarkSlim⟩, by simp [buildIndex, hb], h.exact⟩
  case srCSASlimValidArea => obtain ⟨I, hb, h⟩ := srcsaslimarea_answers hT hsa hn s; exact ⟨⟨I.countAreaSlim, I.locateAreaSlim⟩, by simp [buildIndex, hb], h.exact⟩
  case srCSAWithPsiRun => obtain ⟨I, hb, h⟩ := srcsapsi_answers hT hsa hn s; exact ⟨⟨I.countSlim, I.locateSlim⟩, by simp [buildIndex, hb], h.exact⟩
  case psiValidMark => obtain ⟨I, hb, h⟩ := srcsapsimark_answers hT hsa hn s; exact ⟨⟨I.countMarkSlim, I.locateMarkSlim⟩, by simp [buildIndex, hb], h.exact⟩
  case psiValidArea => obtain ⟨I, hb, h⟩ := srcsapsiarea_answers hT hsa hn s; exact ⟨⟨I.countAreaSlim, I.locateAreaSlim⟩, by simp [buildIndex, hb], h.exact⟩

theorem order_perm (b : Bool) (l : List Nat) : ((if b then List.reverse else id) l).Perm l := by
  cases b
  · exact List.Perm.refl _
  · exact List.reverse_perm l

/-- **C01**: for every index type, Count answers with a range as wide as the number of occurrences. -/
theorem c01_count (t : IndexType) (T sa : List Nat) (hT : IsText T) (hsa : IsSA T sa) (hn : T.length < 2^64) (s : Nat) :
    ∃ q, buildIndex t T sa s = some q ∧ CountExact q.count T := by
  obtain ⟨q, hb, h⟩ := buildIndex_exact t hT hsa hn s
  exact ⟨q, hb, h.countExact⟩

/-- **C02**: for every index type, Count answers with the suffix-array interval of the pattern. -/
theorem c02_interval (t : IndexType) (T sa : List Nat) (hT : IsText T) (hsa : IsSA T sa) (hn : T.length < 2^64) (s : Nat) :
    ∃ q, buildIndex t T sa s = some q ∧ CountInterval q.count T sa := by
  obtain ⟨q, hb, h⟩ := buildIndex_exact t hT hsa hn s
  exact ⟨q, hb, h.countInterval⟩

theorem interval_unique {P T sa : List Nat} {a₁ b₁ a₂ b₂ : Nat} (h₁ : IsInterval P T sa a₁ b₁) (h₂ : IsInterval P T sa a₂ b₂) (hlt : a₁ < b₁) :
    (a₁, b₁) = (a₂, b₂) := by
  have k : ∀ i, i < sa.length → (a₁ ≤ i ∧ i < b₁ ↔ a₂ ≤ i ∧ i < b₂) := fun i hi => (h₁.2.2 i hi).symm.trans (h₂.2.2 i hi)
  obtain ⟨-, l₁, -⟩ := h₁
  obtain ⟨-, l₂, -⟩ := h₂
  have k1 := (k a₁ (by omega)).1 (by omega)
  have k2 := (k (b₁ - 1) (by omega)).1 (by omega)
  have k3 := (k a₂ (by omega)).2 (by omega)
  have k4 := (k (b₂ - 1) (by omega)).2 (by omega)
  rw [Prod.mk.injEq]; omega

/-- **C13**: any two index types at any two rates report the same positions and ranges of the same width, which is the number of positions
    reported; a non-empty range is the same one. -/
theorem c13_agree (t₁ t₂ : IndexType) (T sa : List Nat) (hT : IsText T) (hsa : IsSA T sa) (hn : T.length < 2^64) (s₁ s₂ : Nat) :
    ∃ q₁ q₂, buildIndex t₁ T sa s₁ = some q₁ ∧ buildIndex t₂ T sa s₂ = some q₂ ∧ ∀ P, IsPattern P T →
      ∃ l₁ l₂ a₁ b₁ a₂ b₂, q₁.locate P = some l₁ ∧ q₂.locate P = some l₂ ∧ q₁.count P = some (a₁, b₁) ∧ q₂.count P = some (a₂, b₂) ∧
        l₁.Perm l₂ ∧ l₁.length = b₁ - a₁ ∧ l₂.length = b₂ - a₂ ∧ (l₁ ≠ [] → (a₁, b₁) = (a₂, b₂)) := by
  obtain ⟨q₁, h₁, e₁⟩ := buildIndex_exact t₁ hT hsa hn s₁
  obtain ⟨q₂, h₂, e₂⟩ := buildIndex_exact t₂ hT hsa hn s₂
  refine ⟨q₁, q₂, h₁, h₂, fun P hP => ?_⟩
  obtain ⟨a₁, b₁, c₁, i₁, p₁, l₁⟩ := e₁ P hP
  obtain ⟨a₂, b₂, c₂, i₂, p₂, l₂⟩ := e₂ P hP
  refine ⟨_, _, a₁, b₁, a₂, b₂, l₁, l₂, c₁, c₂, ?_, ?_, ?_, ?_⟩
  · exact ((order_perm _ _).trans (p₁.trans p₂.symm)).trans (order_perm _ _).symm
  · rw [(order_perm _ _).length_eq, saSlice_length i₁.2.1]
  · rw [(order_perm _ _).length_eq, saSlice_length i₂.2.1]
  · intro hne
    refine interval_unique i₁ i₂ ?_
    by_contra hc
    exact hne (by rw [saSlice_nil hc]; cases t₁.backward <;> rfl)

-- a backward index and a forward one
example : (buildIndex .srIndexValidArea exText exSA 3).bind (·.locate [1,2]) = some [0, 3, 8, 6] := by decide +kernel
example : (buildIndex .psiValidMark exText exSA 6).bind (·.locate [1,2]) = some [6, 8, 3, 0] := by decide +kernel
example : (buildIndex .srIndexValidArea exText exSA 3).bind (·.count [1,2]) = some (1, 5) := by decide +kernel
example : (buildIndex .psiValidMark exText exSA 6).bind (·.count [1,2]) = some (1, 5) := by decide +kernel

/-- **C37**: for every index type, Count and Locate terminate without fault and Locate returns as many values as the range is wide. -/
theorem c37_length (t : IndexType) (T sa : List Nat) (hT : IsText T) (hsa : IsSA T sa) (hn : T.length < 2^64) (s : Nat) :
    ∃ q, buildIndex t T sa s = some q ∧ LocateLength q.count q.locate T := by
  obtain ⟨q, hb, h⟩ := buildIndex_exact t hT hsa hn s
  exact ⟨q, hb, h.locateLength (order_perm _)⟩

/-- **C39**: the backward indexes report the range from the last suffix-array position to the first, the forward ones from the first to
    the last. -/
theorem c39_order (t : IndexType) (T sa : List Nat) (hT : IsText T) (hsa : IsSA T sa) (hn : T.length < 2^64) (s : Nat) :
    ∃ q, buildIndex t T sa s = some q ∧ (t.backward = true → LocateDown q.count q.locate T sa) ∧
      (t.backward = false → LocateUp q.count q.locate T sa) := by
  obtain ⟨q, hb, h⟩ := buildIndex_exact t hT hsa hn s
  refine ⟨q, hb, fun ht => ?_, fun ht => ?_⟩
  · rw [ht, if_pos rfl] at h; exact h.down
  · rw [ht, if_neg (by simp)] at h; exact h.up

end Sri
