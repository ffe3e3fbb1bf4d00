import Verif.Proofs.RLEElements
import Verif.Props.RLEString
/-! # C59: RLEString and the type of its elements -/
namespace Sri
set_option autoImplicit false

/-- **C59**, what holds: over bytes given by value (symbols below 256) the default RLEString is the sequence. Missing: the three cases below,
    where it is false. -/
theorem c59_bytes_partial (xs : List Nat) (b : Nat) (hx : xs ≠ []) (hb : 1 ≤ b) (hbyte : ∀ c ∈ xs, c < 256) :
    ∃ S, RLEString.buildByte xs b = some S ∧ S.size = xs.length ∧
      (∀ i (h : i < xs.length), S.access i = some xs[i]) ∧
      (∀ i c, i ≤ xs.length → (∃ d ∈ xs, c ≤ d) → S.rank i c = some ((xs.take i).count c)) ∧
      (∀ k c, 1 ≤ k → k ≤ xs.count c →
        ∃ p, S.select k c = some p ∧ xs[p]? = some c ∧ (xs.take p).count c = k - 1) := by
  rw [RLEString.buildByte_eq hbyte]
  exact c21_rleString_sequence xs b hx hb

example : ([7, 7, 255, 0, 7] : List Nat) ≠ [] ∧ ∀ c ∈ ([7, 7, 255, 0, 7] : List Nat), c < 256 := by decide
example : (RLEString.buildByte [7, 7, 255, 0, 7] 2).map (fun S => (List.range 5).map S.access) =
    some [some 7, some 7, some 255, some 0, some 7] := by decide

/-- **C59** violated, large symbols: the run heads of the default RLEString are bytes, so a symbol from 256 on is never returned by operator[]. -/
theorem c59_large_symbol_violation (xs : List Nat) (b : Nat) (S : RLEString) (h : RLEString.buildByte xs b = some S) (i c : Nat)
    (_hi : xs[i]? = some c) (hc : 256 ≤ c) : S.access i ≠ some c := by
  intro ha
  have hm := RLEString.access_mem ha
  simp only [RLEString.buildByte, Option.bind_eq_bind, Option.bind_eq_some_iff, Option.pure_def, Option.some_inj] at h
  obtain ⟨S', -, rfl⟩ := h
  obtain ⟨d, -, e⟩ := List.mem_map.1 hm
  have := Nat.mod_lt d (show 0 < 256 by omega)
  omega

-- every non-empty sequence is accepted, also with such a symbol, and the symbols below 256 suffer too
example : (RLEString.buildByte [256, 5, 0, 0] 2).map (fun S => (List.range 4).map S.access) = some [some 0, some 0, none, none] := by decide

/-- **C59** violated, `char` below zero: over a std::string with a byte from 128 on the constructor writes outside its vector. -/
theorem c59_negative_char_violation (xs : List Int) (b : Nat) (c : Int) (hc : c ∈ xs) (hneg : c < 0) : RLEString.buildChar xs b = none := by
  have : xs.mapM RLEString.charIndex = none := by
    induction xs with
    | nil => simp at hc
    | cons x xs ih =>
      rw [List.mapM_cons]
      rcases List.mem_cons.1 hc with rfl | hc
      · rw [RLEString.charIndex, if_neg (by omega)]; rfl
      · rw [ih hc]
        cases RLEString.charIndex x <;> rfl
  rw [RLEString.buildChar, this]; rfl

example : RLEString.buildChar [97, 97, -61, -87] 2 = none := by decide

/-- **C59**, what holds over a std::string: with all bytes below 128 the result is the one of the sequence of numbers. Missing: larger bytes,
    where it is false. -/
theorem c59_ascii_partial (xs : List Nat) (b : Nat) (hx : ∀ c ∈ xs, c < 128) :
    RLEString.buildChar (xs.map Int.ofNat) b = RLEString.build xs b := by
  have : (xs.map Int.ofNat).mapM RLEString.charIndex = some xs := by
    clear hx
    induction xs with
    | nil => rfl
    | cons x xs ih =>
      have : RLEString.charIndex (Int.ofNat x) = some x := by
        rw [RLEString.charIndex, if_pos (show (0 : Int) ≤ Int.ofNat x from Int.natCast_nonneg x)]; rfl
      rw [List.map_cons, List.mapM_cons, ih, this]
      rfl
  rw [RLEString.buildChar, this]
  simp only [Option.bind_eq_bind, Option.bind_some]
  exact RLEString.buildByte_eq (fun c h => by have := hx c h; omega)

example : RLEString.buildChar [97, 97, 98] 2 = RLEString.build [97, 97, 98] 2 := c59_ascii_partial [97, 97, 98] 2 (by decide)

/-- **C59** violated, elements reached through references: over the iterators of a non-constant sdsl::int_vector<> the constructor ends
    normally, for every sequence, but the string built answers every access that it answers with the last symbol of the sequence, and the
    caller's vector has its first element overwritten with that symbol. -/
theorem c59_reference_violation (xs : List Nat) (b : Nat) (hx : xs ≠ []) (hb : 1 ≤ b) :
    ∃ S ys, RLEString.buildRef xs b = some (S, ys) ∧
      ys = xs.set 0 (xs.getLast hx) ∧
      (∀ i c, S.access i = some c → c = xs.getLast hx) ∧
      (∀ i c, xs[i]? = some c → c ≠ xs.getLast hx → S.access i ≠ some c) := by
  have hl : 0 < xs.length := List.length_pos_iff.2 hx
  have hlast : xs.getLast hx = xs.getD (xs.length - 1) 0 := by
    rw [List.getLast_eq_getElem, List.getD_eq_getElem?_getD, List.getElem?_eq_getElem (by omega), Option.getD_some]
  set S0 : RLEString.RefState := { cells := xs, map := [], heads := [], runs := [], r := 0 } with hS0
  have inv := RLEString.refLoop_inv b (xs.length - 1) 1 S0 ⟨hl, ⟨[], Or.inr rfl⟩, by simp [hS0]⟩
  obtain ⟨c1, c2, c3⟩ := RLEString.refLoop_cells b (xs.length - 1) 1 S0 (Nat.le_refl _) (by simp only [hS0]; omega)
  set S := RLEString.refLoop b (xs.length - 1) 1 S0 with hS
  have h0 : S.cells.getD 0 0 = xs.getLast hx := by
    rw [c3, hlast]
    by_cases h : xs.length - 1 = 0
    · rw [if_pos h, h]
    · rw [if_neg h]
  have heads : ∀ x ∈ (S.heads ++ [0]).map (fun k => S.cells.getD k 0), x = xs.getLast hx := by
    intro x hxm
    obtain ⟨k, hk, rfl⟩ := List.mem_map.1 hxm
    have : k = 0 := by
      rcases List.mem_append.1 hk with hk | hk
      · exact inv.heads k hk
      · simpa using hk
    rw [this, h0]
  have key : ∀ {S' : RLEString}, S'.runHeads = (S.heads ++ [0]).map (fun k => S.cells.getD k 0) →
      ∀ i c, S'.access i = some c → c = xs.getLast hx := by
    intro S' e i c h
    exact heads c (by rw [← e]; exact RLEString.access_mem h)
  obtain ⟨S', e1, e2⟩ : ∃ S', RLEString.buildRef xs b = some (S', S.cells) ∧
      S'.runHeads = (S.heads ++ [0]).map (fun k => S.cells.getD k 0) := by
    rw [RLEString.buildRef, assertC, if_pos (by simp; exact ⟨hx, by omega⟩)]
    exact ⟨_, rfl, rfl⟩
  refine ⟨S', S.cells, e1, ?_, key e2, fun i c _ hne h => hne (key e2 i c h)⟩
  apply List.ext_getElem?
  intro j
  by_cases hj : j = 0
  · subst hj
    rw [List.getElem?_set_self hl, ← h0, List.getD_eq_getElem?_getD, List.getElem?_eq_getElem inv.pos, Option.getD_some]
  · rw [c1 j (by omega), List.getElem?_set_ne (by omega)]

example : (RLEString.buildRef [3, 3, 1, 2, 2, 5] 2).map (fun p => (p.2, (List.range 6).map p.1.access)) =
    some ([5, 3, 1, 2, 2, 5], [some 5, some 5, some 5, some 5, some 5, some 5]) := by decide

end Sri
