import Verif.Model.SequenceOps
/-! # phi.h, toehold.h, tools.h: the functors used to report suffix-array values -/
namespace Sri
set_option autoImplicit false

/-- GetSampleForPhi::operator() (phi.h:37-46) -/
def getSampleForPhi (getIdx : Nat → Option (Nat × Bool)) (getSample : Nat → Option Nat)
    (valid : Nat → Nat → Bool → Option Bool) (pos delta : Nat) : Option (Nat × Bool) := do
  let (idx, trusted) ← getIdx pos
  let sample ← getSample idx
  let ok ← valid pos delta trusted
  return (sample, ok)

/-- SampleValidatorDefault (tools.h:101-106) -/
def validatorDefault (_pos _delta : Nat) (trusted : Bool) : Option Bool := some trusted

/-- SampleValidator (tools.h:108-130) -/
def validatorArea (areaIdx : Nat → Option Nat) (area : Nat → Option Nat) (pos delta : Nat) (trusted : Bool) : Option Bool :=
  if trusted then some true
  else do
    let idx ← areaIdx pos
    let a ← area idx
    return !decide (a ≤ delta)

/-- PhiBackward::operator() (phi.h:98-112) with phi (phi.h:62-78) -/
def phiBackward (pred : Nat → Option (Nat × Nat)) (getSample : Nat → Nat → Option (Nat × Bool)) (n prev : Nat) :
    Option (Nat × Bool) := do
  let last ← csub n 1
  assertC (decide (prev ≠ last))
  let (pos, related) ← pred prev
  let delta := if related < prev then prev - related else prev + 1
  let (sample, ok) ← getSample pos delta
  let value ← cmod (sample + delta) n
  return (value, ok)

/-- PhiForward::operator() (phi.h:149-161) with phi (phi.h:62-78) -/
def phiForward (succ : Nat → Option (Nat × Nat)) (getSample : Nat → Nat → Option (Nat × Bool)) (n prev : Nat) :
    Option (Nat × Bool) := do
  let (pos, related) ← succ prev
  let delta ← csub related prev
  let (sample, ok) ← getSample pos delta
  let x ← csub (sample + n) delta
  let value ← cmod x n
  return (value, ok)

/-- DataBackwardSearchStep (toehold.h:14-20) -/
structure StepData (β : Type) where
  step : Nat
  run : β
deriving Repr, DecidableEq

/-- ComputeDataBackwardSearchStep::operator() (toehold.h:62-72): `trivial` is `is_lf_trivial_`, `create` is `create_data_` -/
def updateToehold {ρ ν β : Type} (trivial : ρ → Nat → ν → Bool) (create : ρ → Nat → ν → Nat → Option (StepData β))
    (range : ρ) (next : ν) (c step : Nat) (data : StepData β) : Option (StepData β) :=
  if data.step = 0 || !trivial range c next then create range c next step else some data

/-- ComputeToehold::operator() (toehold.h:119-127): `(get_sa_value(run_data) + n - n_steps - 1) % n` -/
def computeToehold {β : Type} (getSAValue : β → Option Nat) (n : Nat) (data : StepData β) : Option Nat := do
  let v ← getSAValue data.run
  let x ← csub (v + n) data.step
  let x ← csub x 1
  cmod x n

/-- ComputeAllValuesWithPhiForRange::operator() (phi.h:788-798): first the toehold, then the rest of the range -/
def computeAllValues {ρ δ : Type} (phiForRange : ρ → Nat → Option (List Nat)) (toehold : δ → Option Nat)
    (updateRange : ρ → Option ρ) (range : ρ) (data : δ) : Option (List Nat) := do
  let k ← toehold data
  let range ← updateRange range
  let rest ← phiForRange range k
  return k :: rest

/-- the loop of the original r-index (r_index.h:252-258, r_csa.h): `phi` once per position, `len` positions -/
def phiLoop (phi : Nat → Option (Nat × Bool)) : Nat → Nat → Option (List Nat)
  | 0, _ => some []
  | len + 1, k => do
    let (k, _) ← phi k
    let rest ← phiLoop phi len k
    return k :: rest

end Sri
