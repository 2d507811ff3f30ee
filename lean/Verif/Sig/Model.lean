/-!
# Signatures of plugin functions

Models `CELFunction.Signatures` and `CELFunction.signatures` (`resolver/cel.go` lines 225-266). The
identifier of a signature (`toSignatureID`, `Verif.Names`) is a parameter.
-/

namespace Verif.Sig

/-- Types of arguments and results, as far as they matter here. -/
inductive Ty where
  | int32
  | enum (name : Nat) (repeated : Bool)
  | other (id : Nat)
deriving DecidableEq, Repr

/-- `arg.Kind == types.Enum`. -/
def isEnum : Ty → Bool
  | .enum _ _ => true
  | _ => false

/-- Arguments and result. -/
structure Sig where
  args : List Ty
  ret : Ty
deriving DecidableEq, Repr

/-- The loop over the arguments, lines 243-252: `pre` are the arguments before `args`. -/
def overArgs (rec : List Ty → List Sig) (pre : List Ty) : List Ty → List Sig
  | [] => []
  | a :: as => (if isEnum a then rec (pre ++ .int32 :: as) else []) ++ overArgs rec (pre ++ [a]) as

/-- `signatures`, lines 241-266; `fuel` bounds the recursion. -/
def sigs : Nat → List Ty → Ty → List Sig
  | 0, _, _ => []
  | fuel + 1, args, ret =>
    overArgs (fun as => sigs fuel as ret) [] args
      ++ (if isEnum ret then sigs fuel args .int32 else [])
      ++ [⟨args, ret⟩]

/-- Number of enums, each of which is replaced at most once. -/
def enums (args : List Ty) : Nat := args.countP isEnum

/-- A bound that is never reached (`C61_fuel`). -/
def signatures (args : List Ty) (ret : Ty) : List Sig := sigs (enums args + 2) args ret

/-- The loop of `Signatures`, lines 229-238. -/
def dedup {I} [DecidableEq I] (id : Sig → I) (seen : List I) : List Sig → List Sig
  | [] => []
  | s :: ss => if id s ∈ seen then dedup id seen ss else s :: dedup id (id s :: seen) ss

/-- `Signatures`, lines 227-239. -/
def overloads {I} [DecidableEq I] (id : Sig → I) (args : List Ty) (ret : Ty) : List Sig :=
  dedup id [] (signatures args ret)

end Verif.Sig
