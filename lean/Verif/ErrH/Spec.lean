import Verif.ErrH.Model

/-!
# What error entries and validations mean

Independent of the functions of the model: only its data types are used.
-/

namespace Verif.ErrH

variable {V X D R E α β : Type}

/-- Evaluating the (optional) definitions in `v` succeeds and leads to `v'`. -/
inductive DefsGive : Option (V → Except X V) → V → V → Prop where
  | none (v : V) : DefsGive none v v
  | some {f : V → Except X V} {v v' : V} : f v = .ok v' → DefsGive (some f) v v'

/-- Evaluating the definitions fails. -/
def DefsFail (d : Option (V → Except X V)) (v : V) : Prop := ∃ f x, d = some f ∧ f v = .error x

/-- `out` holds the results of the elements of a list that produce one, in order; elements that
produce nothing are left out. -/
inductive Kept (gives : α → β → Prop) (nothing : α → Prop) : List α → List β → Prop where
  | nil : Kept gives nothing [] []
  | keep {a b as bs} : gives a b → Kept gives nothing as bs → Kept gives nothing (a :: as) (b :: bs)
  | skip {a as bs} : nothing a → Kept gives nothing as bs → Kept gives nothing (a :: as) bs

/-- A violation all of whose expressions evaluate. -/
def PreOk (v : V) (p : PreViolation V X) (o : String × String × String) : Prop :=
  p.typ v = .ok o.1 ∧ p.subject v = .ok o.2.1 ∧ p.desc v = .ok o.2.2

/-- A violation with an expression that fails. -/
def PreBad (v : V) (p : PreViolation V X) : Prop := ∀ o, ¬ PreOk v p o

/-- A field violation all of whose expressions evaluate. -/
def BadOk (v : V) (p : BadViolation V X) (o : String × String) : Prop :=
  p.field v = .ok o.1 ∧ p.desc v = .ok o.2

/-- A field violation with an expression that fails. -/
def BadBad (v : V) (p : BadViolation V X) : Prop := ∀ o, ¬ BadOk v p o

/-- The messages one `details` entry contributes when its condition holds: its messages, then the
`by` values, precondition failures, bad requests and localized messages, each in declaration order.
What cannot be evaluated is left out, and so are failures without violation. -/
def Contributes (v : V) (d : DetailRule V X D) (out : List (Detail D)) : Prop :=
  ∃ l₁ l₂ l₃ l₄ l₅, out = l₁ ++ l₂ ++ l₃ ++ l₄ ++ l₅ ∧
    (d.msgSet = none → l₁ = []) ∧
    (d.msgSet ≠ none → Kept (fun m o => ∃ x, m v = .ok x ∧ o = .custom x) (fun m => ∀ x, m v ≠ .ok x) d.msgs l₁) ∧
    Kept (fun b o => ∃ x, b v = .ok (some x) ∧ o = .custom x) (fun b => ∀ x, b v ≠ .ok (some x)) d.byExprs l₂ ∧
    Kept (fun vs o => ∃ l, l ≠ [] ∧ o = .precondition l ∧ Kept (PreOk v) (PreBad v) vs l)
      (fun vs => Kept (PreOk v) (PreBad v) vs []) d.preconditions l₃ ∧
    Kept (fun vs o => ∃ l, l ≠ [] ∧ o = .badRequest l ∧ Kept (BadOk v) (BadBad v) vs l)
      (fun vs => Kept (BadOk v) (BadBad v) vs []) d.badRequests l₄ ∧
    Kept (fun l o => ∃ m, l.2 v = .ok m ∧ o = .localized l.1 m) (fun l => ∀ m, l.2 v ≠ .ok m) d.localized l₅

/-- `DetailsGive ds v out`: the details whose conditions hold contribute `out`, in declaration
order. -/
inductive DetailsGive : List (DetailRule V X D) → V → List (Detail D) → Prop where
  | nil (v : V) : DetailsGive [] v []
  | off {d ds v v' out} : DefsGive d.defs v v' → d.cond v' = .ok false → DetailsGive ds v' out →
      DetailsGive (d :: ds) v out
  | on {d ds v v' v'' o out} : DefsGive d.defs v v' → d.cond v' = .ok true → DefsGive d.msgSet v' v'' →
      Contributes v'' d o → DetailsGive ds v'' out → DetailsGive (d :: ds) v (o ++ out)

/-- The status reported: details are attached unless the code is OK or one cannot be encoded. -/
def Attached (ty : Types D) (code : Nat) (ds : List (Detail D)) (s : Status D) : Prop :=
  s.code = code ∧ (code ≠ okCode ∧ (∀ d ∈ ds, ty.packable d = true) → s.details = ds) ∧
    (¬ (code ≠ okCode ∧ ∀ d ∈ ds, ty.packable d = true) → s.details = [])

/-- The message of the status: the evaluated one if the entry declares one, else the original one,
else "error". -/
def MessageIs (st : Option (Status D)) (e : Entry V X D R) (v : V) (m : String) : Prop :=
  match e.message, st with
  | some f, _ => f v = .ok m
  | none, some o => if o.msg = "" then m = "error" else m = o.msg
  | none, none => m = "error"

/-- The code of the status: the declared one, else the original one, else OK. -/
def CodeIs (st : Option (Status D)) (e : Entry V X D R) (c : Nat) : Prop :=
  match e.code, st with
  | some c', _ => c = c'
  | none, some o => c = o.code
  | none, none => c = okCode

/-- The details of the original error whose types are known. -/
def OriginalDetails (ty : Types D) (st : Option (Status D)) (ds : List (Detail D)) : Prop :=
  match st with
  | some o => ds = o.details.filter ty.known
  | none => ds = []

/-- The status an entry that is not ignoring gives in `v`, for an original error with status `st`:
the details are those the entry declares, or those of the original error if it declares none. -/
def EntryStatus (ty : Types D) (st : Option (Status D)) (e : Entry V X D R) (v : V) (s : Status D) : Prop :=
  MessageIs st e v s.msg ∧
  ∃ code ds, CodeIs st e code ∧ (e.details ≠ [] → DetailsGive e.details v ds) ∧
    (e.details = [] → OriginalDetails ty st ds) ∧ Attached ty code ds s

/-- The conditions of all these entries are false; evaluation goes from `v` to `v'`. -/
inductive NoMatch : List (Entry V X D R) → V → V → Prop where
  | nil (v : V) : NoMatch [] v v
  | cons {e es v v' v''} : DefsGive e.defs v v' → e.cond v' = .ok false → NoMatch es v' v'' →
      NoMatch (e :: es) v v''

/-- `e` is the first entry whose condition holds, in environment `v'`. -/
def FirstMatch (es : List (Entry V X D R)) (v : V) (e : Entry V X D R) (v' : V) : Prop :=
  ∃ pre post v₁, es = pre ++ e :: post ∧ NoMatch pre v v₁ ∧ DefsGive e.defs v₁ v' ∧ e.cond v' = .ok true

/-- The environment of the entries: the `error` variable holds the status of the original error. -/
def errorEnv (setError : Status D → V → V) (st : Option (Status D)) (v : V) : V :=
  match st with
  | some s => setError s v
  | none => v

/-- The entry says to ignore the error. -/
def Ignoring (e : Entry V X D R) : Prop := e.ignore = true ∨ e.ignoreAndResponse ≠ none

end Verif.ErrH
