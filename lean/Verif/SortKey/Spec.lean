import Verif.SortKey.Model

/-! # C118: the specification -/

namespace Verif.SortKey

open Verif.CelTy (CTy Prim)

/-- The expression sorts somewhere, at any depth, by keys of a type. -/
inductive Sorts : Expr → Fn → Loc → CTy → Prop where
  | here (fn loc key t m) : Sorts (.sort fn loc key t m) fn loc key
  | target {t fn loc key} (g l k m) (h : Sorts t fn loc key) : Sorts (.sort g l k t m) fn loc key
  | mapping {m fn loc key} (g l k t) (h : Sorts m fn loc key) : Sorts (.sort g l k t m) fn loc key
  | left {a fn loc key} (b) (h : Sorts a fn loc key) : Sorts (.pair a b) fn loc key
  | right {b fn loc key} (a) (h : Sorts b fn loc key) : Sorts (.pair a b) fn loc key

/-- The types a list can be sorted by. -/
inductive Sortable : CTy → Prop where
  | scalar (p : Prim) : Sortable (.prim p)
  | wrapped (p : Prim) : Sortable (.wrapper p)
  | enum (e : List String) : Sortable (.tagged e)
  | duration : Sortable .duration
  | timestamp : Sortable .timestamp

/-- The values of a type. -/
inductive HasTy {O : Type} : KV O → CTy → Prop where
  | prim (p o) : HasTy (.prim p o) (.prim p)
  | nan : HasTy .nan (.prim .double)
  | wrapped (p o) : HasTy (.prim p o) (.wrapper p)
  | wrappedNan : HasTy .nan (.wrapper .double)
  | wrappedNull (p) : HasTy .null (.wrapper p)
  | enum (e o) : HasTy (.prim .int o) (.tagged e)
  | duration (o) : HasTy (.dur o) .duration
  | timestamp (o) : HasTy (.time o) .timestamp
  | list (t) : HasTy .other (.list t)
  | map (k v) : HasTy .other (.map k v)
  | message (n) : HasTy .other (.obj n)
  | nullValue : HasTy .null .null
  | dyn (v) : HasTy v .dyn

/-- The algorithm compares elements of a list of `n` only. -/
inductive Within (n : Nat) : Alg → Prop where
  | done (out) : Within n (.done out)
  | ask (i j k) (hi : i < n) (hj : j < n) (h : ∀ r, Within n (k r)) : Within n (.ask i j k)

end Verif.SortKey
