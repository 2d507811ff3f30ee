import Verif.Plugin.Codec

/-! # C28: values arrive unchanged -/

namespace Verif.Plugin

/-- Specification: the values of a Go type. -/
def HasType {D M} (isF32 : D → Prop) : Elem → Val D M → Prop
  | .float64, .double _ => True
  | .float32, .double d => isF32 d
  | .int32, .int i | .enum, .int i => -2147483648 ≤ i ∧ i ≤ 2147483647
  | .int64, .int i => -9223372036854775808 ≤ i ∧ i ≤ 9223372036854775807
  | .uint32, .uint n => n ≤ 4294967295
  | .uint64, .uint n => n ≤ 18446744073709551615
  | .bool, .bool _ => True
  | .string, .string _ => True
  | .bytes, .bytes _ => True
  | .message, .msg _ => True
  | _, _ => False

theorem wrapI32_id (i : Int) (h1 : -2147483648 ≤ i) (h2 : i ≤ 2147483647) : wrapI32 i = i := by
  unfold wrapI32; omega

theorem wrapU32_id (n : Nat) (h : n ≤ 4294967295) : wrapU32 n = n := by
  unfold wrapU32; omega

/-- C28 for arguments (partial: values of the declared type; CEL integers are wider than int32, uint32
and enums, CEL doubles wider than float): the plugin function gets the value of the expression. -/
theorem C28_argument_partial {D M} (N : Num D M) (t : Elem) (v : Val D M) (h : HasType (fun d => N.f32 d = d) t v) :
    (encode (celKind t) v).map (decode N t) = some v := by
  cases t <;> cases v <;> simp only [HasType] at h <;>
    simp_all [celKind, encode, decode, getInt, getUint, getDouble, getBool, getString, getBytes, getMsg, wrapI32_id, wrapU32_id]

/-- C28 for lists: element by element, in order, none lost. -/
theorem C28_list_argument_partial {D M} (N : Num D M) (t : Elem) (vs : List (Val D M))
    (h : ∀ v ∈ vs, HasType (fun d => N.f32 d = d) t v) :
    (encodeList (celKind t) vs).map (decodeList N t) = some vs := by
  induction vs with
  | nil => rfl
  | cons v vs ih =>
    have h1 := C28_argument_partial N t v (h v (by simp))
    have h2 := ih (fun x hx => h x (by simp [hx]))
    simp only [encodeList]
    cases he : encode (celKind t) v with
    | none => rw [he] at h1; cases h1
    | some e =>
      rw [he] at h1
      simp only
      cases hl : encodeList (celKind t) vs with
      | none => rw [hl] at h2; cases h2
      | some es =>
        rw [hl] at h2
        simp only [Option.map_some, Option.some.injEq] at h1 h2 ⊢
        simp only [decodeList, List.map_cons, h1]
        simp only [decodeList] at h2
        rw [h2]

/-- C28 is false of the code for integers out of range: they arrive as another number, without error. -/
theorem C28_truncated_false {D M} (N : Num D M) :
    (encode (celKind .int32) (.int 4294967297)).map (decode N .int32) = some (.int 1) ∧
    (encode (celKind .uint32) (.uint 4294967297)).map (decode N .uint32) = some (.uint 1) ∧
    (encode (celKind .enum) (.int 4294967297)).map (decode N .enum) = some (.int 1) := by
  simp [encode, celKind, decode, getInt, getUint, wrapI32, wrapU32]

/-- C28 for results: the expression gets the value the plugin function returned, for all types but
enums. -/
theorem C28_result {D M} (N : Num D M) (isF32 : D → Prop) (t : Elem) (ht : t ≠ .enum) (v : Val D M) (h : HasType isF32 t v) :
    ∃ r, respond t (.ok v) = some r ∧ receive N (celKind t) r = .ok v := by
  cases t <;> cases v <;> simp only [HasType] at h <;> try exact absurd rfl ht
  all_goals
    refine ⟨_, rfl, ?_⟩
    simp [receive, celKind, toRef, getInt, getUint, getDouble, getBool, getString, getBytes, getMsg]

/-- C28 for errors (partial: with a message): the expression fails with the error of the plugin
function. -/
theorem C28_error_partial {D M} (N : Num D M) (t : Elem) (k : Kind) (e : String) (he : e ≠ "") :
    ∃ r : Response D M, respond t (.error e) = some r ∧ receive N k r = .error e :=
  ⟨⟨e, none⟩, rfl, by simp [receive, he]⟩

/-- C28 is false of the code for errors without message: the expression succeeds with a zero value. -/
theorem C28_empty_error_false {D M} (N : Num D M) (t : Elem) :
    ∃ r : Response D M, respond t (.error "") = some r ∧ receive N .int r = .ok (.int 0) ∧ receive N .bool r = .ok (.bool false) :=
  ⟨⟨"", none⟩, rfl, rfl, rfl⟩

example (N : Num Nat Nat) : HasType (fun d => N.f32 d = d) .int32 (Val.int (-5) : Val Nat Nat) ∧
    (encodeList .int [(.int 1 : Val Nat Nat), .int (-2)]).map (decodeList N .int32) = some [.int 1, .int (-2)] :=
  ⟨by simp [HasType], rfl⟩

end Verif.Plugin
