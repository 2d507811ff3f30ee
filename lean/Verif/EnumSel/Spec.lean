import Verif.EnumSel.Model

/-! # Specification: the chosen enum -/

namespace Verif.EnumSel

open Verif.CelTy

/-- `Chosen env x e n`: the conditions of `x` lead to an expression of the enum `e` with the value `n`. -/
inductive Chosen {Env : Type} (env : Env) : Expr Env → Name → Int → Prop
  | leaf (l e v) : Chosen env (.leaf l e v) e (v env)
  | yes {c t f e n} : c env = true → Chosen env t e n → Chosen env (.select c t f) e n
  | no {c t f e n} : c env = false → Chosen env f e n → Chosen env (.select c t f) e n

/-- The enums are those of expressions with the type of an enum, and have values of enums (32 bits). -/
inductive Enums {Env : Type} (env : Env) : Expr Env → Prop
  | leaf {e v} : -2147483648 ≤ v env → v env ≤ 2147483647 → Enums env (.leaf .accessor e v)
  | select {c t f} : Enums env t → Enums env f → Enums env (.select c t f)

/-- All enums of an expression, without fields and constants. -/
inductive Typed {Env : Type} : Expr Env → Prop
  | leaf {e v} : Typed (.leaf .accessor e v)
  | select {c t f} : Typed t → Typed f → Typed (.select c t f)

/-- `e` is an enum of the expression. -/
inductive Mentions {Env : Type} : Expr Env → Name → Prop
  | leaf (l e v) : Mentions (.leaf l e v) e
  | yes {c t f e} : Mentions t e → Mentions (.select c t f) e
  | no {c t f e} : Mentions f e → Mentions (.select c t f) e

/-- Calls of `select` are only nested in the second argument, the value for true. -/
inductive TrueNested {Env : Type} : Expr Env → Prop
  | leaf (l e v) : TrueNested (.leaf l e v)
  | select {c t l e v} : TrueNested t → TrueNested (.select c t (.leaf l e v))

end Verif.EnumSel
