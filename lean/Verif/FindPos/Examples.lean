import Verif.FindPos.Props2

/-! # C109: a file, and files for which the location that is found leads elsewhere -/

namespace Verif.FindPos

open SrcLoc

theorem part_str {i : Id} {s : Text} {w : Val} : Part (.str i s) w ↔ w = .str i s := by
  constructor
  · intro h; cases h; rfl
  · rintro rfl; exact .refl _

theorem part_msg {i : Id} {fs : List (String × Val)} {w : Val} :
    Part (.msg i fs) w ↔ w = .msg i fs ∨ ∃ e ∈ fs, Part e.2 w := by
  constructor
  · intro h
    cases h with
    | refl => exact .inl rfl
    | field he hp => exact .inr ⟨_, he, hp⟩
  · rintro (rfl | ⟨e, he, hp⟩)
    · exact .refl _
    · exact .field he hp

namespace Example

/-- `{name: "x" message: {name: "N"}}` -/
def d : Val := .msg 4 [("name", .str 5 []), ("message", .msg 6 [("name", .str 7 [])])]

/-- `option (grpc.federation.message) = {def: …}` -/
def o : Opt := ⟨2, "grpc.federation.message".toList, .msg 3 [("def", d)]⟩

def g : Field := ⟨8, "f", 9, []⟩

/-- An import, a message with a definition and a field, and a service. -/
def f : List Top := [.import 0 "a.proto".toList, .msg 1 "M" [.opt o, .field g], .svc ⟨10, "S", [.rpc ⟨11, "R", []⟩]⟩]

/-- Each node is in one line. -/
def span : Id → Span
  | 0 => ⟨⟨1, 8⟩, ⟨1, 17⟩⟩
  | 1 => ⟨⟨3, 1⟩, ⟨9, 2⟩⟩
  | 2 => ⟨⟨4, 3⟩, ⟨4, 90⟩⟩
  | 3 => ⟨⟨4, 38⟩, ⟨4, 88⟩⟩
  | 4 => ⟨⟨4, 43⟩, ⟨4, 80⟩⟩
  | 5 => ⟨⟨4, 50⟩, ⟨4, 53⟩⟩
  | 6 => ⟨⟨4, 60⟩, ⟨4, 78⟩⟩
  | 7 => ⟨⟨4, 67⟩, ⟨4, 70⟩⟩
  | 8 => ⟨⟨5, 3⟩, ⟨5, 20⟩⟩
  | 9 => ⟨⟨5, 3⟩, ⟨5, 8⟩⟩
  | _ => ⟨⟨11, 1⟩, ⟨13, 2⟩⟩

theorem laid : ValLaid span o.val := by
  intro u w hu hw
  simp only [o, d, part_msg, part_str, List.mem_cons, List.not_mem_nil, or_false, exists_eq_left, exists_eq_or_imp] at hu
  rcases hu with rfl | rfl | rfl | rfl | rfl <;>
    simp only [part_msg, part_str, List.mem_cons, List.not_mem_nil, or_false, exists_eq_left, exists_eq_or_imp] at hw <;>
    (try rcases hw with rfl | rfl | rfl | rfl | rfl) <;> (try rcases hw with rfl | rfl | rfl | rfl) <;>
    (try rcases hw with rfl | rfl) <;> (try subst hw) <;> simp [Inside, span, Pos.le, Val.id]

theorem apart : ValApart span o.val := by
  constructor
  · intro i fs h
    simp only [o, d, part_msg, part_str, List.mem_cons, List.not_mem_nil, or_false, exists_eq_left, exists_eq_or_imp, Val.msg.injEq,
      reduceCtorEq, false_or] at h
    rcases h with ⟨rfl, rfl⟩ | ⟨rfl, rfl⟩ | ⟨rfl, rfl⟩ <;> simp [Disjoint, In, span, Pos.le, Val.id] <;> omega
  · intro i vs h
    simp [o, d, part_msg, part_str] at h

theorem bodies {n : String} {nested : List String} {i : Id} {body : List Decl} (h : message f n nested = some (i, body)) :
    i = 1 ∧ body = [.opt o, .field g] := by
  unfold message f at h
  simp only [List.findSome?_cons, List.findSome?_nil] at h
  by_cases hn : "M" = n
  · simp only [if_pos hn] at h
    cases nested with
    | nil => simp [innerMsg] at h; exact ⟨h.1.symm, h.2.symm⟩
    | cons x xs => simp [innerMsg, nestedMsg] at h
  · simp [if_neg hn] at h

end Example

example : Laid Example.span Example.f where
  msgs := by
    intro n nested i body h o' ho
    obtain ⟨rfl, rfl⟩ := Example.bodies h
    simp only [options, List.flatMap_cons, List.flatMap_nil, List.append_nil, List.mem_singleton] at ho
    subst ho
    exact ⟨by simp [Inside, Example.span, Pos.le, Example.o], by simp [Inside, Example.span, Pos.le, Example.o, Val.id], Example.laid⟩
  values := by
    intro n nested i body h e he
    obtain ⟨rfl, rfl⟩ := Example.bodies h
    simp at he
  svcs := by
    intro s hs o' ho
    simp only [Example.f, List.mem_cons, reduceCtorEq, false_or, Top.svc.injEq, List.not_mem_nil, or_false] at hs
    subst hs
    simp [Service.opts] at ho

theorem Example.tidy : Tidy Example.f where
  msgNames := by simp [Example.f]
  svcNames := by simp [Example.f]
  imports := by
    intro pre i n post h
    cases pre with
    | nil => intro t ht; cases ht
    | cons t ts =>
      exfalso
      simp only [Example.f, List.cons_append, List.cons.injEq] at h
      have : Top.import i n ∈ ts ++ .import i n :: post := by simp
      rw [← h.2] at this
      simp at this
  msgs := by
    intro n nested i body h
    obtain ⟨rfl, rfl⟩ := Example.bodies h
    exact {
      msgs := by simp [msgNames]
      enums := by simp [enumNames]
      fields := by simp [fields]
      option := by
        refine ⟨by simp only [options]; exact Nat.le_trans (List.length_filter_le _ _) (by simp), ?_⟩
        intro o' ho
        simp only [options, List.flatMap_cons, List.flatMap_nil, List.append_nil, List.mem_singleton] at ho
        subst ho
        intro i fs h
        simp only [Example.o, Example.d, part_msg, part_str, List.mem_cons, List.not_mem_nil, or_false, exists_eq_left, exists_eq_or_imp,
          Val.msg.injEq, reduceCtorEq, false_or] at h
        rcases h with ⟨rfl, rfl⟩ | ⟨rfl, rfl⟩ | ⟨rfl, rfl⟩ <;> simp
      fieldOptions := by
        intro g' hg
        simp only [fields, List.flatMap_cons, List.flatMap_nil, List.append_nil, List.nil_append, List.mem_singleton] at hg
        subst hg
        exact ⟨by simp [Example.g], by simp [Example.g]⟩
      enumsTidy := by simp
      last := by
        intro pre d' post h hf
        cases pre with
        | nil => exact absurd rfl hf
        | cons a as =>
          simp only [List.cons_append, List.cons.injEq] at h
          cases as with
          | nil => simp only [List.nil_append, List.cons.injEq] at h; rw [← h.2.1]; rfl
          | cons b bs => simp at h }
  svcs := by
    intro s hs
    simp only [Example.f, List.mem_cons, reduceCtorEq, false_or, Top.svc.injEq, List.not_mem_nil, or_false] at hs
    subst hs
    exact {
      rpcs := by simp [Service.rpcs]
      methodOptions := by
        intro r hr
        simp only [Service.rpcs, List.filterMap_cons, List.filterMap_nil, List.mem_singleton] at hr
        subst hr
        exact ⟨by simp, by simp⟩
      first := by
        intro pre o' post h
        cases pre with
        | nil => simp at h
        | cons a as => simp at h }

theorem Example.spread : Spread Example.span Example.f where
  apart := by
    simp [roots, Example.f, topRoots, bodyRoots, fieldRoots, svcRoots, optRoots, Example.g, Disjoint, In, Root.id, Example.o, Val.id,
      Example.span, Pos.le]
    repeat' constructor
    all_goals first | omega | (intros; omega)
  vals := by
    intro v hv
    simp only [roots, Example.f, topRoots, bodyRoots, fieldRoots, svcRoots, optRoots, Example.g, List.flatMap_cons, List.flatMap_nil,
      List.map_nil, List.nil_append, List.append_nil, List.mem_cons, List.mem_append, List.not_mem_nil, or_false, Root.val.injEq,
      reduceCtorEq, false_or] at hv
    subst hv
    exact ⟨Example.laid, Example.apart⟩

example : NoEmptyImport Example.f := by
  intro t ht
  simp only [Example.f, List.mem_cons, List.not_mem_nil, or_false] at ht
  rcases ht with rfl | rfl | rfl <;> simp

/-- The name of the message of the definition is found, and the type of the field. -/
example : find Example.span (fun _ => false) Example.f ⟨4, 68⟩ =
    some { message := some ⟨"M", [], { option := some (.def 0 (.message .name)) }⟩ } :=
  C109_option _ _ _ _ Example.spread Example.tidy "M" [] 1 _ rfl Example.o (by simp) rfl
    (by
      intro i fs h e he _ m hm
      simp only [Example.o, Val.msg.injEq] at h
      obtain ⟨rfl, rfl⟩ := h
      simp only [List.mem_singleton] at he
      subst he
      simp only [Example.d, messages, List.mem_singleton] at hm
      subst hm
      exact {
        strs := by intro e he; simp at he; rcases he with rfl | rfl <;> simp [IsStr]
        call := by intro e he; simp at he; rcases he with rfl | rfl <;> simp
        message := by
          intro e he; simp at he; rcases he with rfl | rfl <;> simp [Val.lit?]
          exact ⟨by intro e he; simp at he; subst he; simp [IsStr], by intro e he; simp at he; subst he; simp⟩ })
    (.def 0 (.message .name)) 7
    (.def (v := Example.d) rfl (.head _) rfl (.message (j := 6) (fs := [("name", .str 7 [])]) (.tail _ (.head _)) (.head _)))
    (by simp [In, Example.span, Pos.le])

example : find Example.span (fun _ => false) Example.f ⟨5, 4⟩ =
    some { message := some ⟨"M", [], { field := some { name := "f", type := true } }⟩ } :=
  C109_field_type _ _ _ _ Example.spread Example.tidy "M" [] 1 _ rfl Example.g (by simp [fields]) rfl
  (by simp [In, Example.g, Example.span, Pos.le])

/-! ## Where the location that is found leads elsewhere

Nodes below 10 are over all lines, the others in the line of their number. -/

def lines (i : Id) : Span := if i < 10 then ⟨⟨1, 1⟩, ⟨99, 1⟩⟩ else ⟨⟨i, 1⟩, ⟨i, 9⟩⟩

macro "body" : tactic => `(tactic| (simp only [find, List.findSome?, findTop, findBody]; rfl))

/-- Of two definitions that are written as two fields, the second is taken for the first. -/
theorem C109_twice_false : ∃ (f : List Top) (pos : Pos) (l : Loc) (id : Id),
    find lines (fun _ => false) f pos = some l ∧ nodeInfo f l = some id ∧ contains (lines id) pos = false :=
  ⟨[.msg 1 "M" [.opt ⟨2, "grpc.federation.message".toList,
      .msg 3 [("def", .msg 10 [("name", .str 10 [])]), ("def", .msg 5 [("name", .str 11 [])])]⟩]],
    ⟨11, 3⟩, { message := some ⟨"M", [], { option := some (.def 0 .name) }⟩ }, 10, by body, rfl, by decide⟩

/-- In the option of a message that is written after a field, the field is found. -/
theorem C109_after_field_false : ∃ (f : List Top) (pos : Pos) (l : Loc) (id : Id),
    find lines (fun _ => false) f pos = some l ∧ nodeInfo f l = some id ∧ contains (lines id) pos = false :=
  ⟨[.msg 1 "M" [.field ⟨10, "f", 10, []⟩,
      .opt ⟨2, "grpc.federation.message".toList, .msg 3 [("def", .msg 4 [("name", .str 11 [])])]⟩]],
    ⟨11, 3⟩, { message := some ⟨"M", [], { option := some (.def 0 .name), field := some { name := "f" } }⟩ }, 10,
    by body, rfl, by decide⟩

/-- In the option of a service that is written after a method, nothing is found. -/
theorem C109_after_method_false : ∃ (f : List Top) (pos : Pos) (l : Loc),
    find lines (fun _ => false) f pos = some l ∧ nodeInfo f l = none :=
  ⟨[.svc ⟨1, "S", [.rpc ⟨10, "R", []⟩, .opt ⟨2, "grpc.federation.service".toList, .msg 3 [("env", .msg 4 [("message", .str 11 [])])]⟩]⟩],
    ⟨11, 3⟩, { service := some { name := "S", method := some { name := "R" } } }, rfl, rfl⟩

/-- Nothing in an enum of a file is found. -/
theorem C109_enum_false (span : Id → Span) (maps : Id → Bool) (e : Enum) (pos : Pos) : find span maps [.enum e] pos = none := rfl

/-- The alias of an enum value is not found if it is written after `default: true`, as it is if it is written before. -/
theorem C109_default_false :
    find lines (fun _ => false) [.msg 1 "M" [.enum ⟨2, "E", [.value ⟨3, "V", [⟨4, "grpc.federation.enum_value".toList,
      .msg 5 [("default", .ident 10), ("alias", .str 11 [])]⟩]⟩]⟩]] ⟨11, 3⟩ = none ∧
    find lines (fun _ => false) [.msg 1 "M" [.enum ⟨2, "E", [.value ⟨3, "V", [⟨4, "grpc.federation.enum_value".toList,
      .msg 5 [("alias", .str 11 []), ("default", .ident 10)]⟩]⟩]⟩]] ⟨11, 3⟩ =
      some { message := some ⟨"M", [], { enum := some { name := "E", value := some { name := "V", option := some .alias } } }⟩ } :=
  ⟨by body, by body⟩

/-- After a string that is written as two literals, only the option is found. -/
theorem C109_compound_false :
    find lines (fun _ => false) [.msg 1 "M" [.opt ⟨2, "grpc.federation.message".toList,
      .msg 3 [("def", .msg 4 [("name", .other 10), ("by", .str 11 [])])]⟩]] ⟨11, 3⟩ =
      some { message := some ⟨"M", [], { option := some .none }⟩ } := by body

end Verif.FindPos
