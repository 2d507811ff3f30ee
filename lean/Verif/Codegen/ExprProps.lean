import Verif.Codegen.Expr

/-! # C36 (data) and C37 -/

namespace Verif.Codegen

/-- C37: kinds survive encoding and decoding. -/
theorem C37_kinds (k : TKind) : decKind (encKind k) = k := by cases k <;> rfl

/-- C37: no two kinds are encoded alike. -/
theorem C37_distinct (a b : TKind) (h : encKind a = encKind b) : a = b := by
  rw [← C37_kinds a, ← C37_kinds b, h]

/-- C37: the text of a kind determines it, and is read back, except for messages and enums, which are named. -/
theorem C37_text (k : TKind) : kindOf (kindText k) = if k = .message ∨ k = .enum then .unknown else k := by cases k <;> decide

theorem C37_text_distinct (a b : TKind) (h : kindText a = kindText b) : a = b := by
  cases a <;> cases b <;> first | rfl | (revert h; decide)

/-- Specification: types that refer to at most one object. -/
def Ty.Single (t : Ty) : Prop :=
  (t.message = none ∨ t.enum = none) ∧ (t.message = none ∨ t.oneofField = none) ∧ (t.enum = none ∨ t.oneofField = none)

/-- C36: types survive. -/
theorem C36_type (t : Ty) (h : t.Single) : decTy (encTy t) = t := by
  obtain ⟨k, r, n, m, e, o⟩ := t
  simp only [Ty.Single] at h
  simp only [decTy, encTy, C37_kinds]
  cases m <;> cases e <;> cases o <;> simp_all

/-- C36 is false of the code for members of a oneof of message or enum type: they become plain types. -/
theorem C36_oneof_false :
    decTy (encTy ⟨.message, false, false, some "p.M".toList, none, some "p.A.f".toList⟩) = ⟨.message, false, false, some "p.M".toList, none, none⟩ := by
  decide

def CEL.Single (c : CEL Ty) : Prop := ∀ t ∈ c.out, t.Single
def OCEL (c : Option (CEL Ty)) : Prop := ∀ x ∈ c, x.Single

theorem cel_rt (c : CEL Ty) (h : c.Single) : (c.conv encTy).conv decTy = c := by
  obtain ⟨e, o⟩ := c
  cases o with
  | none => rfl
  | some t => simp only [CEL.conv, Option.map_some]; rw [C36_type t (h t rfl)]

theorem ocel_rt (c : Option (CEL Ty)) (h : OCEL c) : (c.map (CEL.conv encTy)).map (CEL.conv decTy) = c := by
  cases c with
  | none => rfl
  | some x => simp only [Option.map_some]; rw [cel_rt x (h x rfl)]

theorem oty_rt (t : Option Ty) (h : ∀ x ∈ t, x.Single) : (t.map encTy).map decTy = t := by
  cases t with
  | none => rfl
  | some x => simp only [Option.map_some]; rw [C36_type x (h x rfl)]

/-- Specification: arguments have an expression as value and proper types. -/
def Value.OK (v : Value Ty) : Prop := v.cel ≠ none ∧ OCEL v.cel
def Arg.OK (a : Arg Ty) : Prop := (∀ t ∈ a.ty, t.Single) ∧ (∀ v ∈ a.value, v.OK) ∧ OCEL a.ifv

theorem value_rt (v : Value Ty) (h : v.OK) : decValue (encValue v) = .ok v := by
  obtain ⟨i, c⟩ := v
  obtain ⟨h1, h2⟩ := h
  cases c with
  | none => exact absurd rfl h1
  | some c => simp only [encValue, decValue, Option.map_some]; rw [cel_rt c (h2 c rfl)]

theorem arg_rt (a : Arg Ty) (h : a.OK) : decArg (encArg a) = .ok a := by
  obtain ⟨n, t, v, i⟩ := a
  obtain ⟨h1, h2, h3⟩ := h
  simp only [decArg, encArg]
  rw [oty_rt t h1, ocel_rt i h3]
  cases v with
  | none => rfl
  | some v => simp only [Option.map_some]; rw [value_rt v (h2 v rfl)]

theorem args_rt (as : List (Arg Ty)) (h : ∀ a ∈ as, a.OK) : decArgs (as.map encArg) = .ok as := by
  induction as with
  | nil => rfl
  | cons a as ih =>
    simp only [List.map_cons, decArgs]
    rw [arg_rt a (h a (by simp)), ih (fun x hx => h x (by simp [hx]))]

/-- C36: durations survive, also negative ones. -/
theorem C36_duration (d : Int) : decDuration (encDuration d) = d := by
  simp only [decDuration, encDuration]
  rw [Int.mul_comm]
  exact Int.mul_tdiv_add_tmod d 1000000000

/-- The nanoseconds have less than a second and the sign of the duration, as protobuf wants it. -/
theorem C36_duration_valid (d : Int) : (encDuration d).2.natAbs < 1000000000 ∧ ((encDuration d).2 = 0 ∨ (encDuration d).2.sign = d.sign) := by
  simp only [encDuration]
  refine ⟨?_, ?_⟩
  · have := Int.natAbs_tmod d 1000000000
    rw [this]
    exact Nat.mod_lt _ (by decide)
  · by_cases hd : d.tmod 1000000000 = 0
    · exact .inl hd
    · right
      rcases Int.lt_trichotomy d 0 with h | h | h
      · have : d.tmod 1000000000 ≤ 0 := by
          have := Int.tmod_nonneg 1000000000 (show 0 ≤ -d by omega)
          rw [Int.neg_tmod] at this
          omega
        have h' : d.tmod 1000000000 < 0 := by omega
        rw [Int.sign_eq_neg_one_of_neg h, Int.sign_eq_neg_one_of_neg h']
      · subst h; simp at hd
      · have : 0 ≤ d.tmod 1000000000 := Int.tmod_nonneg _ (by omega)
        have h' : 0 < d.tmod 1000000000 := by omega
        rw [Int.sign_eq_one_of_pos h, Int.sign_eq_one_of_pos h']

/-- Specification: a policy is either constant or exponential. -/
def Retry.OK (r : Retry) : Prop := OCEL r.ifv ∧ (r.constant = none ∨ r.exponential = none) ∧ ¬ (r.constant = none ∧ r.exponential = none)

theorem C36_retry (r : Retry) (h : r.OK) : decRetry (encRetry r) = .ok r := by
  obtain ⟨i, c, e⟩ := r
  obtain ⟨h1, h2, h3⟩ := h
  simp only at h1 h2 h3
  simp only [decRetry, encRetry]
  rw [ocel_rt i h1]
  cases c with
  | some c => cases e <;> simp_all [C36_duration]
  | none => cases e <;> simp_all [C36_duration]

/-- Specification: errors without variables of their own, with the default log level, all sets present. -/
def Detail.OK (d : Detail Ty (Option DefSet)) : Prop :=
  OCEL d.ifv ∧ d.defSet ≠ none ∧ (∀ c ∈ d.by', c.Single) ∧ d.messages ≠ none ∧
  (∀ l ∈ d.preconditionFailures, ∀ v ∈ l, OCEL v.1 ∧ OCEL v.2.1 ∧ OCEL v.2.2) ∧ (∀ l ∈ d.badRequests, ∀ v ∈ l, OCEL v.1 ∧ OCEL v.2) ∧
  (∀ v ∈ d.localized, OCEL v.2)

def GErr.OK (e : GErr) : Prop :=
  e.defSet = none ∧ e.logLevel = 0 ∧ OCEL e.ifv ∧ OCEL e.message ∧ OCEL e.ignoreAndResponse ∧ ∀ d ∈ e.details, d.OK

theorem map_rt {α β : Type} (f : α → β) (g : β → α) (l : List α) (h : ∀ x ∈ l, g (f x) = x) : (l.map f).map g = l := by
  induction l with
  | nil => rfl
  | cons x xs ih => simp only [List.map_cons]; rw [h x (by simp), ih (fun y hy => h y (by simp [hy]))]

theorem detail_rt (d : Detail Ty (Option DefSet)) (h : d.OK) : decDetail (encDetail d) = d := by
  obtain ⟨i, s, b, m, p, r, l⟩ := d
  obtain ⟨h1, h2, h3, h4, h5, h6, h7⟩ := h
  simp only at h1 h2 h3 h4 h5 h6 h7
  simp only [decDetail, encDetail, Detail.conv]
  rw [ocel_rt i h1, map_rt _ _ b (fun c hc => cel_rt c (h3 c hc)),
    map_rt _ _ p (fun x hx => map_rt _ _ x (fun v hv => by rw [ocel_rt _ (h5 x hx v hv).1, ocel_rt _ (h5 x hx v hv).2.1, ocel_rt _ (h5 x hx v hv).2.2])),
    map_rt _ _ r (fun x hx => map_rt _ _ x (fun v hv => by rw [ocel_rt _ (h6 x hx v hv).1, ocel_rt _ (h6 x hx v hv).2])),
    map_rt _ _ l (fun v hv => by rw [ocel_rt _ (h7 v hv)])]
  cases s with
  | none => exact absurd rfl h2
  | some s =>
    cases m with
    | none => exact absurd rfl h4
    | some m => rfl

theorem C36_error_partial (e : GErr) (h : e.OK) : decErr (encErr e) = e := by
  obtain ⟨s, i, c, m, d, g, r, l⟩ := e
  obtain ⟨h1, h2, h3, h4, h5, h6⟩ := h
  simp only at h1 h2 h3 h4 h5 h6
  subst h1; subst h2
  simp only [decErr, encErr]
  rw [ocel_rt i h3, ocel_rt m h4, ocel_rt r h5, map_rt _ _ d (fun x hx => detail_rt x (h6 x hx))]

/-- Specification: calls without error handling. -/
def Call.OK (c : Call) : Prop := (∀ r ∈ c.request, ∀ a ∈ r.args, a.OK) ∧ (∀ r ∈ c.retry, r.OK) ∧ c.errors = []

theorem req_rt (r : Option (Req Ty)) (h : ∀ x ∈ r, ∀ a ∈ x.args, a.OK) : decReq (r.map encReq) = .ok r := by
  cases r with
  | none => rfl
  | some r => simp only [Option.map_some, decReq, encReq]; rw [args_rt r.args (h r rfl)]

/-- C36 (partial: calls without error handling): calls survive. -/
theorem C36_call_partial (c : Call) (h : c.OK) : decCall (encCall c) = .ok c := by
  obtain ⟨m, q, d, r, e⟩ := c
  obtain ⟨h1, h2, h3⟩ := h
  simp only at h1 h2 h3
  subst h3
  simp only [decCall, encCall]
  rw [req_rt q h1]
  have hd : (d.map encDuration).map decDuration = d := by
    cases d with
    | none => rfl
    | some d => simp only [Option.map_some]; rw [C36_duration]
  simp only
  rw [hd]
  cases r with
  | none => rfl
  | some r => simp only [Option.map_some]; rw [C36_retry r (h2 r rfl)]

theorem msg_rt (m : Msg Ty) (h : ∀ a ∈ m.args, a.OK) : decMsg (encMsg m) = .ok m := by
  simp only [decMsg, encMsg]; rw [args_rt m.args h]

theorem enum_rt (x : EnumE Ty) (h : OCEL x.by') : (x.conv encTy).conv decTy = x := by
  obtain ⟨e, b⟩ := x
  simp only [EnumE.conv]; rw [ocel_rt b h]

/-- Specification: one kind of expression, the parts as above. -/
def IterExpr.OK (e : IterExpr) : Prop :=
  (∀ t ∈ e.ty, t.Single) ∧
  ((OCEL e.by ∧ e.message = none ∧ e.enum = none) ∨
   (e.by = none ∧ (∀ m ∈ e.message, ∀ a ∈ m.args, a.OK) ∧ e.enum = none) ∨
   (e.by = none ∧ e.message = none ∧ (∀ x ∈ e.enum, OCEL x.by')))

theorem iter_rt (e : IterExpr) (h : e.OK) : decIter (encIter e) = .ok e := by
  obtain ⟨t, b, m, x⟩ := e
  obtain ⟨h1, h⟩ := h
  simp only at h1 h
  rcases h with ⟨hb, rfl, rfl⟩ | ⟨rfl, hm, rfl⟩ | ⟨rfl, rfl, hx⟩
  · cases b with
    | none => simp [encIter, decIter, oty_rt t h1]
    | some b => simp only [encIter, decIter]; rw [oty_rt t h1, cel_rt b (hb b rfl)]
  · cases m with
    | none => simp [encIter, decIter, oty_rt t h1]
    | some m => simp only [encIter, decIter]; rw [oty_rt t h1, msg_rt m (hm m rfl)]
  · cases x with
    | none => simp [encIter, decIter, oty_rt t h1]
    | some x => simp only [encIter, decIter]; rw [oty_rt t h1, enum_rt x (hx x rfl)]

theorem map_expr_rt (m : MapE IterExpr) (h : ∀ x ∈ m.expr, x.OK) : decMap (encMap m) = .ok m := by
  obtain ⟨i, x⟩ := m
  cases x with
  | none => rfl
  | some x => simp only [decMap, encMap, Option.map_some]; rw [iter_rt x (h x rfl)]

def VarExpr.OK (e : VarExpr) : Prop :=
  (∀ t ∈ e.ty, t.Single) ∧
  ((OCEL e.by ∧ e.map = none ∧ e.call = none ∧ e.message = none ∧ e.enum = none ∧ e.validation = none) ∨
   (e.by = none ∧ (∀ m ∈ e.map, ∀ x ∈ m.expr, x.OK) ∧ e.call = none ∧ e.message = none ∧ e.enum = none ∧ e.validation = none) ∨
   (e.by = none ∧ e.map = none ∧ (∀ c ∈ e.call, c.OK) ∧ e.message = none ∧ e.enum = none ∧ e.validation = none) ∨
   (e.by = none ∧ e.map = none ∧ e.call = none ∧ (∀ m ∈ e.message, ∀ a ∈ m.args, a.OK) ∧ e.enum = none ∧ e.validation = none) ∨
   (e.by = none ∧ e.map = none ∧ e.call = none ∧ e.message = none ∧ (∀ x ∈ e.enum, OCEL x.by') ∧ e.validation = none) ∨
   (e.by = none ∧ e.map = none ∧ e.call = none ∧ e.message = none ∧ e.enum = none ∧ (∀ v ∈ e.validation, ∀ x ∈ v, x.OK)))

theorem expr_rt (e : VarExpr) (h : e.OK) : decExpr (encExpr e) = .ok e := by
  obtain ⟨t, b, p, c, m, x, v⟩ := e
  obtain ⟨h1, h⟩ := h
  simp only at h1 h
  rcases h with ⟨hb, rfl, rfl, rfl, rfl, rfl⟩ | ⟨rfl, hp, rfl, rfl, rfl, rfl⟩ | ⟨rfl, rfl, hc, rfl, rfl, rfl⟩ | ⟨rfl, rfl, rfl, hm, rfl, rfl⟩ |
    ⟨rfl, rfl, rfl, rfl, hx, rfl⟩ | ⟨rfl, rfl, rfl, rfl, rfl, hv⟩
  · cases b with
    | none => simp [encExpr, decExpr, oty_rt t h1]
    | some b => simp only [encExpr, decExpr]; rw [oty_rt t h1, cel_rt b (hb b rfl)]
  · cases p with
    | none => simp [encExpr, decExpr, oty_rt t h1]
    | some p => simp only [encExpr, decExpr]; rw [oty_rt t h1, map_expr_rt p (hp p rfl)]
  · cases c with
    | none => simp [encExpr, decExpr, oty_rt t h1]
    | some c => simp only [encExpr, decExpr]; rw [oty_rt t h1, C36_call_partial c (hc c rfl)]
  · cases m with
    | none => simp [encExpr, decExpr, oty_rt t h1]
    | some m => simp only [encExpr, decExpr]; rw [oty_rt t h1, msg_rt m (hm m rfl)]
  · cases x with
    | none => simp [encExpr, decExpr, oty_rt t h1]
    | some x => simp only [encExpr, decExpr]; rw [oty_rt t h1, enum_rt x (hx x rfl)]
  · cases v with
    | none => simp [encExpr, decExpr, oty_rt t h1]
    | some v =>
      simp only [encExpr, decExpr]
      rw [oty_rt t h1]
      cases v with
      | none => rfl
      | some v => simp only [Option.map_some]; rw [C36_error_partial v (hv _ rfl v rfl)]

/-- C36 (partial: calls without error handling, validations without own variables and log level, no members of oneofs of
message or enum type): a variable definition survives. -/
theorem C36_definition_partial (d : Definition (CEL Ty) VarExpr) (hi : OCEL d.ifv) (h : ∀ e ∈ d.expr, e.OK) : decDef (encDef d) = .ok d := by
  obtain ⟨i, n, c, a, u, e⟩ := d
  simp only [decDef, encDef]
  rw [ocel_rt c hi]
  cases e with
  | none => rfl
  | some e => simp only [Option.map_some]; rw [expr_rt e (h e rfl)]

/-! ## Failures -/

/-- C36 is false of the code for calls: whatever error handling they have, the plugin sees none. -/
theorem C36_call_errors_false (c : Call) (h : ∀ r ∈ c.request, ∀ a ∈ r.args, a.OK) (hr : ∀ r ∈ c.retry, r.OK) :
    decCall (encCall c) = .ok { c with errors := [] } :=
  C36_call_partial { c with errors := [] } ⟨h, hr, rfl⟩

/-- C36 is false of the code for errors with variables or a log level. -/
theorem C36_error_false (e : GErr) : (decErr (encErr e)).defSet = none ∧ (decErr (encErr e)).logLevel = 0 := ⟨rfl, rfl⟩

/-- C36 is false of the code for details: missing sets become empty ones. -/
theorem C36_detail_false (d : Detail Ty (Option DefSet)) (h : d.defSet = none) : (decDetail (encDetail d)).defSet = some ⟨[], [], none⟩ := by
  simp [decDetail, encDetail, Detail.conv, h, encDefSet]

/-- C36 is false of the code for retry policies without constant or exponential backoff: decoding fails. -/
theorem C36_retry_false : decRetry (encRetry ⟨none, none, none⟩) = .error () := rfl

/-- A call with timeout and retry, and a map over another variable, meet the hypotheses. -/
example : VarExpr.OK ⟨some ⟨.message, false, false, some "p.M".toList, none, none⟩, none, none,
    some ⟨some "p.S.Get".toList, some ⟨[⟨"id".toList, none, some ⟨false, some ⟨"$.id".toList, none⟩⟩, none⟩], some "p.Req".toList⟩, some 1500000000,
      some ⟨none, some (30000000000, 3), none⟩, []⟩, none, none, none⟩ := by
  refine ⟨by simp [Ty.Single], .inr (.inr (.inl ⟨rfl, rfl, ?_, rfl, rfl, rfl⟩))⟩
  intro c hc
  cases hc
  exact ⟨by simp [Arg.OK, Value.OK, OCEL, CEL.Single], by simp [Retry.OK, OCEL], rfl⟩

example : VarExpr.OK ⟨none, none, some ⟨some ("it".toList, some "users".toList), some ⟨none, none, some ⟨some "p.U".toList, [⟨"u".toList, none, some ⟨false, some ⟨"it".toList, none⟩⟩, none⟩]⟩, none⟩⟩,
    none, none, none, none⟩ := by
  refine ⟨by simp, .inr (.inl ⟨rfl, ?_, rfl, rfl, rfl, rfl⟩)⟩
  intro m hm x hx
  cases hm
  cases hx
  exact ⟨by simp, .inr (.inl ⟨rfl, by simp [Arg.OK, Value.OK, OCEL, CEL.Single], rfl⟩)⟩

/-- A validation with a detail meets the hypotheses. -/
example : GErr.OK ⟨none, some ⟨"x == 1".toList, none⟩, some 9, none, [⟨none, some ⟨[], [], none⟩, [], some ⟨[], [], none⟩, [], [], [("en".toList, some ⟨"m".toList, none⟩)]⟩], false, none, 0⟩ := by
  simp [GErr.OK, Detail.OK, OCEL, CEL.Single]

end Verif.Codegen
