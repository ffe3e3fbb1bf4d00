import Verif.Model.Words
import Verif.Model.Objects
/-! # Index objects queried in machine arithmetic

`Model/Objects.lean` says which items an index object takes from its storage; `Model/Words.lean` repeats the queries of every class with 64-bit words
that wrap around. Here the two meet: the queries, in machine words, of an object that was loaded from a cache or from a stream. -/
namespace Sri
set_option autoImplicit false

/-- `Parts.assemble` with the functors of `buildIndex64`: constructIndex of every class (r_index.h:103-114, sr_index.h:88-106, 305-311, 413-421,
    r_csa.h:105-123, 466-482, sr_csa.h:226-261, 438-474, 615-626, 721-732, sr_csa_psi.h:91-119, 347-352, 442-450), the functors computing with
    std::size_t. Simplification: as `Parts.assemble`. -/
def Parts.assemble64 (p : Parts) (t : IndexType) (s : Nat) : Option Queries :=
  match t with
  | .rIndex => p.rIndex.map (fun I => queries64 I.functors64)
  | .srIndex => (p.srIndex s).map (fun I => queries64 (I.functorsWith64 I.phiForRange64))
  | .srIndexValidMark => (p.srIndexValid s).map (fun I => queries64 (I.sr.functorsWith64 (I.phiForRange64 I.phiMark64)))
  | .srIndexValidArea => (p.srIndexValid s).map (fun I => queries64 (I.sr.functorsWith64 (I.phiForRange64 I.phiArea64)))
  | .rcsaWithBWTRun => p.rcsa.map (fun I => queries64 (RCSABwt.functors64 I))
  | .rcsaWithPsiRun => p.rcsa.map (fun I => queries64 (RCSAPsi.functors64 I))
  | .srCSA => (p.srCSA s).map (fun I => queries64 (I.functorsWith64 I.posOps64 (I.phiForRange64 I.posOps64)))
  | .srCSASlim => (p.srCSA s).map (fun I => queries64 (I.functorsWith64 I.slimOps64 (I.phiForRange64 I.slimOps64)))
  | .srCSAValidMark => (p.srCSAValid s).map (fun I => queries64 (I.csa.functorsWith64 I.csa.posOps64 (I.phiForRange64 I.csa.posOps64 I.phiMark64)))
  | .srCSAValidArea => (p.srCSAValid s).map (fun I => queries64 (I.csa.functorsWith64 I.csa.posOps64 (I.phiForRange64 I.csa.posOps64 I.phiArea64)))
  | .srCSASlimValidMark => (p.srCSAValid s).map (fun I => queries64 (I.csa.functorsWith64 I.csa.slimOps64 (I.phiForRange64 I.csa.slimOps64 I.phiMark64)))
  | .srCSASlimValidArea => (p.srCSAValid s).map (fun I => queries64 (I.csa.functorsWith64 I.csa.slimOps64 (I.phiForRange64 I.csa.slimOps64 I.phiArea64)))
  | .srCSAWithPsiRun => (p.srCSA s).map (fun I => queries64 (I.functorsWith64 I.slimOps64 (I.phiForRange64 I.slimOps64)))
  | .psiValidMark => (p.srCSAValid s).map (fun I => queries64 (I.csa.functorsWith64 I.csa.slimOps64 (I.phiForRange64 I.csa.slimOps64 I.phiMark64)))
  | .psiValidArea => (p.srCSAValid s).map (fun I => queries64 (I.csa.functorsWith64 I.csa.slimOps64 (I.phiForRange64 I.csa.slimOps64 I.phiArea64)))

/-- `Object.queries` in machine words: Count and Locate (index_base.h:49-55) of an object over the items of its storage -/
def Object.queries64 (I : Object) (S : Storage) : Option Queries := do
  let p ← collect I.type I.bv I.keys S
  p.assemble64 I.type I.rate

end Sri
