import Verif.NullCmp.Model

/-!
# What comparing with `null` should mean

`evalNA` evaluates the *original* expression with the intended meaning of comparisons: when exactly
one operand of `==`/`!=` is the literal `null`, the other operand counts as `null` if it is a nil
message.  Nothing else differs from `eval`.
-/

namespace Verif.NullCmp

/-- A nil message counts as `null`, every other value as itself. -/
def asNull (v : Val) : Val := if v = .nilMsg then .null else v

/-- Operand values of a comparison in which exactly one operand is the literal `null`. -/
def nullAware (fn : String) (args : List Expr) (vs : List Val) : List Val :=
  match args, vs with
  | [l, r], [a, b] =>
    if isEq fn && isNull l && !isNull r then [a, asNull b]
    else if isEq fn && isNull r && !isNull l then [asNull a, b]
    else [a, b]
  | _, vs => vs

mutual
/-- Null-aware evaluation.  `keys` says how map keys are evaluated: `true` null-aware too, `false`
plainly. -/
def evalNA {Env} (S : Sem Env) (keys : Bool) : Expr → Env → Val
  | .null => fun _ => .null
  | .lit k => fun _ => S.lit k
  | .ident x => fun ρ => S.var ρ x
  | .select e f => fun ρ => S.sel (evalNA S keys e ρ) f
  | .call fn args => fun ρ => apply S fn (nullAware fn args (evalNAL S keys args ρ))
  | .mcall t fn args => fun ρ =>
      apply S fn (evalNA S keys t ρ :: nullAware fn args (evalNAL S keys args ρ))
  | .list es => fun ρ => S.list (evalNAL S keys es ρ)
  | .struct ks vs => fun ρ =>
      S.struct (if keys then evalNAL S keys ks ρ else evalL S ks ρ) (evalNAL S keys vs ρ)
  | .comp i a r x c s e =>
      S.comp i a (evalNA S keys r) (evalNA S keys x) (evalNA S keys c) (evalNA S keys s) (evalNA S keys e)
def evalNAL {Env} (S : Sem Env) (keys : Bool) : List Expr → Env → List Val
  | [] => fun _ => []
  | e :: es => fun ρ => evalNA S keys e ρ :: evalNAL S keys es ρ
end

mutual
/-- Some call inside compares something with the literal `null` (map keys included). -/
def comparesNull : Expr → Bool
  | .null => false
  | .lit _ => false
  | .ident _ => false
  | .select e _ => comparesNull e
  | .call fn args => (isEq fn && args.any isNull) || comparesNullL args
  | .mcall t fn args => (isEq fn && args.any isNull) || comparesNull t || comparesNullL args
  | .list es => comparesNullL es
  | .struct ks vs => comparesNullL ks || comparesNullL vs
  | .comp _ _ r x c s e =>
    comparesNull r || comparesNull x || comparesNull c || comparesNull s || comparesNull e
def comparesNullL : List Expr → Bool
  | [] => false
  | e :: es => comparesNull e || comparesNullL es
end

mutual
/-- No map key compares anything with `null`. -/
def keysPlain : Expr → Bool
  | .null => true
  | .lit _ => true
  | .ident _ => true
  | .select e _ => keysPlain e
  | .call _ args => keysPlainL args
  | .mcall t _ args => keysPlain t && keysPlainL args
  | .list es => keysPlainL es
  | .struct ks vs => !comparesNullL ks && keysPlainL vs
  | .comp _ _ r x c s e => keysPlain r && keysPlain x && keysPlain c && keysPlain s && keysPlain e
def keysPlainL : List Expr → Bool
  | [] => true
  | e :: es => keysPlain e && keysPlainL es
end

end Verif.NullCmp
