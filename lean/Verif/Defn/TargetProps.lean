import Verif.Defn.Target
import Verif.FindPos.Examples
import Verif.SrcLoc.Props2

/-! # C90: which definition is searched at a position -/

namespace Verif.Defn.Target

open SrcLoc FindPos

/-! ## Specification -/

/-- What a part of the option of a message names: an alias a type, the name in a message expression a message, the method
of a call a method.  The other texts, for example expressions and names of arguments, name no declaration. -/
def Names : MsgOptPart → Option Search
  | .alias => some .typeAlias
  | .def _ (.message .name) => some .messageName
  | .def _ (.call .method) => some .methodName
  | _ => none

/-! ## Properties -/

theorem text_searched {o : Opt} {p : MsgOptPart} {id : Id} (h : OptionText o p id) :
    (p.searched = true ∧ p.path ≠ []) ∨ Names p = none := by
  cases h with
  | alias => exact .inl ⟨rfl, by simp [MsgOptPart.path]⟩
  | short => exact .inl ⟨rfl, by simp [MsgOptPart.path]⟩
  | «def» _ _ _ hd =>
    cases hd with
    | args | request => exact .inr rfl
    | _ => exact .inl ⟨rfl, by simp [MsgOptPart.path]⟩

theorem text_search {o : Opt} {p : MsgOptPart} {id : Id} (h : OptionText o p id) (n : String) :
    search { message := some ⟨n, [], { option := some p }⟩ } = Names p := by
  cases h with
  | alias => rfl
  | short => rfl
  | «def» _ _ _ hd => cases hd <;> rfl

/-- C90: on every text of a definition, and on the alias, of the option of a message that is not nested, what the text names is
searched, for the text itself; on a text that names no declaration nothing is.  Missing: nested messages and map expressions, for which it
is false, see `C90_nested_false` and `C90_map_false`. -/
theorem C90_option_partial (span : Id → Span) (maps : Id → Bool) (f : List Top) (pos : Pos) (hs : Spread span f) (ht : Tidy f)
    (hf : NoEmptyImport f) (n : String) (i : Id) (body : List Decl) (hm : message f n [] = some (i, body)) (o : Opt)
    (ho : (options body).filter (·.named "grpc.federation.message") = [o]) (hb : Decl.opt o ∈ body) (hk : OptionKind o.val)
    (k : Id) (fs : List (String × Val)) (hval : o.val = .msg k fs) (p : MsgOptPart) (v : Val)
    (hat : at? o.val p.path = some v) (hv : p.kind.ok v = true) (hp : OptionText o p v.id) (hin : In span v.id pos) :
    target span maps f pos = (Names p).map (·, v.id) := by
  have hn : o.named "grpc.federation.message" = true :=
    (List.mem_filter.1 (ho ▸ List.mem_singleton_self o : o ∈ (options body).filter (·.named "grpc.federation.message"))).2
  rw [target, C109_option span maps f pos hs ht n [] i body hm o hb hn hk p v.id hp hin]
  obtain ⟨hse, hpa⟩ | hno := text_searched hp
  · simp only [C91_message_partial f hf n [] i body o k fs p v hm ho hval hse hpa hat hv]
    rw [text_search hp]
  · simp only [text_search hp, hno]
    split <;> rfl

/-- C90: on the type of a field of a message of any nesting the type is searched, first inside of that message. -/
theorem C90_field_type (span : Id → Span) (maps : Id → Bool) (f : List Top) (pos : Pos) (hs : Spread span f) (ht : Tidy f)
    (hf : NoEmptyImport f) (n : String) (nested : List String) (i : Id) (body : List Decl)
    (hm : message f n nested = some (i, body)) (g : Field) (hg : g ∈ fields body)
    (hu : (fields body).find? (fun y => y.name = g.name) = some g) (hmap : maps g.id = false) (hin : In span g.typeId pos) :
    target span maps f pos = some (.fieldType (n :: nested), g.typeId) := by
  rw [target, C109_field_type span maps f pos hs ht n nested i body hm g hg hmap hin]
  simp only [(C91_field f hf n nested i body g.name g hm hu).2]
  cases nested <;> rfl

/-- C90: on an import the file is searched. -/
theorem C90_import_name (span : Id → Span) (maps : Id → Bool) (pre post : List Top) (pos : Pos) (i : Id) (n : Text) (hn : n ≠ [])
    (hs : Spread span (pre ++ .import i n :: post))
    (hpre : ∀ t ∈ pre, (∀ j, t ≠ .import j n) ∧ ∀ o, t = .opt o → ∀ v ∈ importValues o, v.text? ≠ some n)
    (hin : In span i pos) : target span maps (pre ++ .import i n :: post) pos = some (.importFile, i) := by
  rw [target, C109_import span maps _ pos hs i n (by simp) hin]
  simp only [(C91_import pre post n i hpre).1]
  simp [search, isImportName, hn]

/-- C90, false of the code: on the name of a message and on the method of a call of a definition in a nested message nothing is
searched, at any position and however deep. -/
theorem C90_nested_false (span : Id → Span) (maps : Id → Bool) (f : List Top) (pos : Pos) (hs : Spread span f) (ht : Tidy f)
    (n x : String) (nested : List String) (i : Id) (body : List Decl) (hm : message f n (x :: nested) = some (i, body)) (o : Opt)
    (hb : Decl.opt o ∈ body) (hn : o.named "grpc.federation.message" = true) (hk : OptionKind o.val) (d : Nat) (p : DefPart)
    (id : Id) (hp : OptionText o (.def d p) id) (hin : In span id pos) : target span maps f pos = none := by
  rw [target, C109_option span maps f pos hs ht n (x :: nested) i body hm o hb hn hk _ id hp hin]
  simp only
  split
  · rfl
  · cases p <;> rfl

/-- C90, false of the code: the messages of map expressions, enums, and what is in the definitions of errors and of oneof fields, are
never searched: no location in them has a search, whatever it is in. -/
theorem C90_map_false (n : String) (nested : List String) (d : Nat) (m : MapPart) (e : EnumExprPart) (v : ErrPart) (k : Nat)
    (x : String) (q : OneofPart) :
    search { message := some ⟨n, nested, { option := some (.def d (.map m)) }⟩ } = none ∧
    search { message := some ⟨n, nested, { option := some (.def d (.enum e)) }⟩ } = none ∧
    search { message := some ⟨n, nested, { option := some (.def d (.validation v)) }⟩ } = none ∧
    search { message := some ⟨n, nested, { option := some (.def d (.call (.error k v))) }⟩ } = none ∧
    search { message := some ⟨n, nested, { field := some { name := x, option := some (.oneof q) } }⟩ } = none := by
  cases nested <;> exact ⟨rfl, rfl, rfl, rfl, rfl⟩

/-- C90, false of the code: the alias of a field, which names a field, and the alias of an enum value, which names an enum value, are
searched as types. -/
theorem C90_alias_false (n x y : String) (nested : List String) :
    search { message := some ⟨n, nested, { field := some { name := x, option := some .alias } }⟩ } = some .typeAlias ∧
    search { message := some ⟨n, nested, { enum := some { name := x, value := some { name := y, option := some .alias } } }⟩ } =
      some .typeAlias := by
  cases nested <;> exact ⟨rfl, rfl⟩

/-- C90: nothing in a service or in an export is searched. -/
theorem C90_service (s : Option SvcLoc) (e : Option String) (g : Bool) :
    search { service := s, «export» := e, goPackage := g } = none := rfl

/-- C90: the alias of an enum, in a file or in a message, is searched as a type. -/
theorem C90_enum_alias (n x : String) (nested : List String) :
    search { enum := some { name := x, alias := some true } } = some .typeAlias ∧
    search { message := some ⟨n, nested, { enum := some { name := x, alias := some true } }⟩ } = some .typeAlias := by
  cases nested <;> exact ⟨rfl, rfl⟩

/-! ## Examples -/

theorem Example.kind : OptionKind Example.o.val := by
  intro i fs h e he _ m hm
  simp only [Example.o, Val.msg.injEq] at h
  obtain ⟨rfl, rfl⟩ := h
  simp only [List.mem_singleton] at he
  subst he
  simp only [Example.d, messages, List.mem_singleton] at hm
  subst hm
  exact {
    strs := by intro e he; simp at he; rcases he with rfl | rfl <;> simp [IsStr]
    call := by intro e he; simp at he; rcases he with rfl | rfl <;> simp
    message := by
      intro e he; simp at he; rcases he with rfl | rfl <;> simp [Val.lit?]
      exact ⟨by intro e he; simp at he; subst he; simp [IsStr], by intro e he; simp at he; subst he; simp⟩ }

theorem Example.noEmpty : NoEmptyImport Example.f := by
  intro t ht
  simp only [Example.f, List.mem_cons, List.not_mem_nil, or_false] at ht
  rcases ht with rfl | rfl | rfl <;> simp

example : target Example.span (fun _ => false) Example.f ⟨4, 68⟩ = some (.messageName, 7) :=
  C90_option_partial _ _ _ _ Example.spread Example.tidy Example.noEmpty "M" 1 _ rfl Example.o rfl (by simp) Example.kind _ _ rfl
    (.def 0 (.message .name)) (.str 7 []) rfl rfl
    (.def (v := Example.d) rfl (.head _) rfl (.message (j := 6) (fs := [("name", .str 7 [])]) (.tail _ (.head _)) (.head _)))
    (by simp [In, Val.id, Example.span, Pos.le])

example : target Example.span (fun _ => false) Example.f ⟨5, 4⟩ = some (.fieldType ["M"], Example.g.typeId) :=
  C90_field_type _ _ _ _ Example.spread Example.tidy Example.noEmpty "M" [] 1 _ rfl Example.g (by simp [fields]) rfl rfl
    (by simp [In, Example.g, Example.span, Pos.le])

/-- The message of the example inside of another one. -/
def Example.inner : List Top := [.msg 10 "N" [.msg 1 "M" [.opt Example.o]]]

theorem Example.innerBodies {n : String} {nested : List String} {i : Id} {body : List Decl}
    (h : message Example.inner n nested = some (i, body)) :
    (i = 10 ∧ body = [.msg 1 "M" [.opt Example.o]]) ∨ (i = 1 ∧ body = [.opt Example.o]) := by
  unfold message Example.inner at h
  simp only [List.findSome?_cons, List.findSome?_nil] at h
  by_cases hn : "N" = n
  · simp only [if_pos hn] at h
    cases nested with
    | nil => simp [innerMsg] at h; exact .inl ⟨h.1.symm, h.2.symm⟩
    | cons x xs =>
      by_cases hx : "M" = x
      · subst hx
        cases xs with
        | nil => simp [innerMsg, nestedMsg] at h; exact .inr ⟨h.1.symm, h.2.symm⟩
        | cons y ys => simp [innerMsg, nestedMsg] at h
      · simp [innerMsg, nestedMsg, hx] at h
  · simp [if_neg hn] at h

theorem Example.innerTidy : Tidy Example.inner where
  msgNames := by simp [Example.inner]
  svcNames := by simp [Example.inner]
  imports := by
    intro pre i n post h
    have : Top.import i n ∈ pre ++ .import i n :: post := by simp
    rw [← h] at this
    simp [Example.inner] at this
  msgs := by
    intro n nested i body h
    obtain ⟨rfl, rfl⟩ | ⟨rfl, rfl⟩ := Example.innerBodies h
    · exact {
        msgs := by simp [msgNames]
        enums := by simp [enumNames]
        fields := by simp [fields]
        option := ⟨by simp [options], by simp [options]⟩
        fieldOptions := by simp [fields]
        enumsTidy := by simp
        last := by
          intro pre d' post h hf
          cases pre with
          | nil => exact absurd rfl hf
          | cons a as => simp at h }
    · exact {
        msgs := by simp [msgNames]
        enums := by simp [enumNames]
        fields := by simp [fields]
        option := by
          refine ⟨by simp only [options]; exact Nat.le_trans (List.length_filter_le _ _) (by simp), ?_⟩
          intro o' ho
          simp only [options, List.flatMap_cons, List.flatMap_nil, List.append_nil, List.mem_singleton] at ho
          subst ho
          intro i fs h
          simp only [Example.o, Example.d, part_msg, part_str, List.mem_cons, List.not_mem_nil, or_false, exists_eq_left,
            exists_eq_or_imp, Val.msg.injEq, reduceCtorEq, false_or] at h
          rcases h with ⟨rfl, rfl⟩ | ⟨rfl, rfl⟩ | ⟨rfl, rfl⟩ <;> simp
        fieldOptions := by simp [fields]
        enumsTidy := by simp
        last := by
          intro pre d' post h hf
          cases pre with
          | nil => exact absurd rfl hf
          | cons a as => simp at h }
  svcs := by
    intro s hs
    simp [Example.inner] at hs

theorem Example.innerSpread : Spread Example.span Example.inner where
  apart := by simp [roots, Example.inner, topRoots, bodyRoots]
  vals := by
    intro v hv
    simp only [roots, Example.inner, topRoots, bodyRoots, List.flatMap_cons, List.flatMap_nil, List.append_nil, List.mem_singleton,
      Root.val.injEq] at hv
    subst hv
    exact ⟨Example.laid, Example.apart⟩

example : target Example.span (fun _ => false) Example.inner ⟨4, 68⟩ = none :=
  C90_nested_false _ _ _ _ Example.innerSpread Example.innerTidy "N" "M" [] 1 _ rfl Example.o (by simp) rfl Example.kind
    0 (.message .name) 7
    (.def (v := Example.d) rfl (.head _) rfl (.message (j := 6) (fs := [("name", .str 7 [])]) (.tail _ (.head _)) (.head _)))
    (by simp [In, Example.span, Pos.le])

example : target Example.span (fun _ => false) Example.f ⟨1, 10⟩ = some (.importFile, 0) :=
  C90_import_name _ _ [] _ _ 0 _ (by decide) Example.spread (by simp) (by simp [In, Example.span, Pos.le])

end Verif.Defn.Target
