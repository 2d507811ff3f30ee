import Verif.SrcLoc.Lemmas

/-! # C91: a problem is shown at the element it is about -/

namespace Verif.SrcLoc

/-! ## Specification -/

/-- No import of a file has an empty name. -/
def NoEmptyImport (f : List Top) : Prop :=
  ∀ t ∈ f, match t with
    | .import _ n => n ≠ []
    | .opt o => ∀ v ∈ importValues o, v.text? ≠ some []
    | _ => True

/-- The message of a name in a body, and what it declares. -/
def nestedMsg (body : List Decl) (n : String) : Option (Id × List Decl) :=
  body.findSome? fun d => match d with
    | .msg i m b => if m = n then some (i, b) else none
    | _ => none

/-- The message at the end of a path of names. -/
def innerMsg : Id × List Decl → List String → Option (Id × List Decl)
  | m, [] => some m
  | m, n :: ns =>
    match nestedMsg m.2 n with
    | some x => innerMsg x ns
    | none => none

/-- The message of a path of names in a file. -/
def message (f : List Top) (n : String) (nested : List String) : Option (Id × List Decl) :=
  match f.findSome? fun t => match t with
    | .msg i m b => if m = n then some (i, b) else none
    | _ => none with
  | some m => innerMsg m nested
  | none => none

/-- The options of a message in the order they are written, also those in its oneofs. -/
def options (body : List Decl) : List Opt :=
  body.flatMap fun
    | .opt o => [o]
    | .oneof _ ds => ds.filterMap fun | .opt o => some o | .field _ => none
    | _ => []

/-- The fields of a message, also those in its oneofs. -/
def fields (body : List Decl) : List Field :=
  body.flatMap fun
    | .field f => [f]
    | .oneof _ ds => ds.filterMap fun | .field f => some f | .opt _ => none
    | _ => []

/-! ## The deepest element -/

theorem deepest_at (k : Kind) : ∀ (path : List Step) (m : Lit) (v : Val), at? m.val path = some v → k.ok v = true →
    deepest k m path = some v.id
  | [], m, v, h, hk => by
    simp only [at?, Option.some.injEq] at h
    subst h
    rw [deepest, if_pos hk]
    rfl
  | .fld n :: r, m, v, h, hk => by
    rw [deepest]
    rw [Lit.val, at?] at h
    cases he : m.fields.find? fun e => e.1 = n with
    | none => rw [he] at h; cases h
    | some e =>
      rw [he] at h
      simp only at h ⊢
      cases r with
      | nil =>
        simp only [at?, Option.some.injEq] at h
        simp only [h, hk, if_true]
      | cons s r =>
        cases hv : e.2 with
        | msg i fs =>
          rw [hv] at h
          simp only [Val.lit?]
          exact deepest_at k (s :: r) ⟨i, fs⟩ v h hk
        | str i t => rw [hv] at h; cases s <;> simp [at?] at h
        | ident i => rw [hv] at h; cases s <;> simp [at?] at h
        | other i => rw [hv] at h; cases s <;> simp [at?] at h
        | arr i t => rw [hv] at h; cases s <;> simp [at?] at h
  | .itm n i :: r, m, v, h, hk => by
    rw [deepest]
    rw [Lit.val, at?] at h
    cases hl : lits (elems m.fields n) with
    | nil => rw [hl] at h; simp at h
    | cons x xs =>
      rw [hl] at h
      simp only
      cases hi : (x :: xs)[i]? with
      | none => rw [hi] at h; cases h
      | some y =>
        rw [hi] at h
        exact deepest_at k r y v h hk

/-- Whatever is found is on the path. -/
theorem deepest_on_path (k : Kind) : ∀ (path : List Step) (m : Lit) (id : Id), deepest k m path = some id →
    ∃ pre, pre <+: path ∧ ∃ v, at? m.val pre = some v ∧ v.id = id
  | [], m, id, h => by
    rw [deepest] at h
    split at h
    · cases h; exact ⟨[], by simp, m.val, rfl, rfl⟩
    · cases h
  | .fld n :: r, m, id, h => by
    rw [deepest] at h
    cases he : m.fields.find? fun e => e.1 = n with
    | none => rw [he] at h; cases h; exact ⟨[], by simp, m.val, rfl, rfl⟩
    | some e =>
      rw [he] at h
      simp only at h
      cases r with
      | nil =>
        simp only at h
        split at h
        · cases h; exact ⟨[.fld n], by simp, e.2, by simp [Lit.val, at?, he], rfl⟩
        · cases h
      | cons s r =>
        simp only at h
        cases hv : e.2.lit? with
        | none => rw [hv] at h; cases h
        | some x =>
          rw [hv] at h
          obtain ⟨pre, hp, v, hv', hid⟩ := deepest_on_path k (s :: r) x id h
          have hx : e.2 = x.val := by
            cases hee : e.2 <;> rw [hee] at hv <;> simp [Val.lit?] at hv
            rw [← hv]; rfl
          refine ⟨.fld n :: pre, List.cons_prefix_cons.2 ⟨rfl, hp⟩, v, ?_, hid⟩
          rw [Lit.val, at?, he]
          simp only
          rw [hx]
          exact hv'
  | .itm n i :: r, m, id, h => by
    rw [deepest] at h
    cases hl : lits (elems m.fields n) with
    | nil => rw [hl] at h; cases h; exact ⟨[], by simp, m.val, rfl, rfl⟩
    | cons x xs =>
      rw [hl] at h
      simp only at h
      cases hi : (x :: xs)[i]? with
      | none => rw [hi] at h; cases h
      | some y =>
        rw [hi] at h
        obtain ⟨pre, hp, v, hv, hid⟩ := deepest_on_path k r y id h
        refine ⟨.itm n i :: pre, List.cons_prefix_cons.2 ⟨rfl, hp⟩, v, ?_, hid⟩
        rw [Lit.val, at?, hl]
        rw [hi]
        exact hv

/-- A field that is not there: the message it is missing in. -/
theorem deepest_missing (k : Kind) (n : String) (r : List Step) (i : Id) (fs : List (String × Val))
    (hn : ∀ e ∈ fs, e.1 ≠ n) : ∀ (pre : List Step) (m : Lit), at? m.val pre = some (.msg i fs) →
      deepest k m (pre ++ .fld n :: r) = some i
  | [], m, h => by
    simp only [at?, Lit.val, Option.some.injEq, Val.msg.injEq] at h
    rw [List.nil_append, deepest, h.2]
    rw [List.find?_eq_none.2 (by simpa using hn), h.1]
  | .fld x :: p, m, h => by
    rw [List.cons_append, deepest]
    rw [Lit.val, at?] at h
    cases he : m.fields.find? fun e => e.1 = x with
    | none => rw [he] at h; cases h
    | some e =>
      rw [he] at h
      simp only at h ⊢
      cases hv : e.2 with
      | msg j gs =>
        rw [hv] at h
        have ih := deepest_missing k n r i fs hn p ⟨j, gs⟩ h
        cases hp : p ++ .fld n :: r with
        | nil => simp at hp
        | cons s q => rw [hp] at ih; exact ih
      | str i t => rw [hv] at h; cases p <;> simp [at?] at h
      | ident i => rw [hv] at h; cases p <;> simp [at?] at h
      | other i => rw [hv] at h; cases p <;> simp [at?] at h
      | arr i t => rw [hv] at h; cases p <;> simp [at?] at h
  | .itm x j :: p, m, h => by
    rw [List.cons_append, deepest]
    rw [Lit.val, at?] at h
    cases hl : lits (elems m.fields x) with
    | nil => rw [hl] at h; simp at h
    | cons y ys =>
      rw [hl] at h
      simp only
      cases hi : (y :: ys)[j]? with
      | none => rw [hi] at h; cases h
      | some z =>
        rw [hi] at h
        exact deepest_missing k n r i fs hn p z h

/-- A path can not be followed: a value on it is no message, its end is not of the expected kind, or there is no element
of an index although there are others. -/
def Broken (k : Kind) (v : Val) (path : List Step) : Prop :=
  (∃ w, at? v path = some w ∧ k.ok w = false) ∨
  (∃ pre s r w, path = pre ++ s :: r ∧ at? v pre = some w ∧ w.lit? = none) ∨
  (∃ pre n i r j gs, path = pre ++ .itm n i :: r ∧ at? v pre = some (.msg j gs) ∧ lits (elems gs n) ≠ [] ∧
    (lits (elems gs n)).length ≤ i)

theorem Broken.cons {k : Kind} {v w : Val} {s : Step} {r : List Step} (hs : ∀ q, at? v (s :: q) = at? w q)
    (h : Broken k w r) : Broken k v (s :: r) := by
  rcases h with ⟨x, h1, h2⟩ | ⟨pre, t, q, x, rfl, h2, h3⟩ | ⟨pre, n, i, q, j, gs, rfl, h2, h3, h4⟩
  · exact .inl ⟨x, by rw [hs]; exact h1, h2⟩
  · exact .inr (.inl ⟨s :: pre, t, q, x, rfl, by rw [hs]; exact h2, h3⟩)
  · exact .inr (.inr ⟨s :: pre, n, i, q, j, gs, rfl, by rw [hs]; exact h2, h3, h4⟩)

/-- Nothing is found only if the path can not be followed. -/
theorem deepest_none (k : Kind) : ∀ (path : List Step) (m : Lit), deepest k m path = none → Broken k m.val path
  | [], m, h => by
    rw [deepest] at h
    split at h
    · cases h
    · rename_i hk; exact .inl ⟨m.val, rfl, by simpa using hk⟩
  | .fld n :: r, m, h => by
    rw [deepest] at h
    cases he : m.fields.find? fun e => e.1 = n with
    | none => rw [he] at h; cases h
    | some e =>
      rw [he] at h
      simp only at h
      have hs : ∀ q, at? m.val (.fld n :: q) = at? e.2 q := fun q => by rw [Lit.val, at?, he]
      cases r with
      | nil =>
        simp only at h
        split at h
        · cases h
        · rename_i hk; exact .inl ⟨e.2, by rw [hs]; rfl, by simpa using hk⟩
      | cons s r =>
        simp only at h
        cases hv : e.2.lit? with
        | none => exact .inr (.inl ⟨[.fld n], s, r, e.2, rfl, by rw [hs]; rfl, hv⟩)
        | some x =>
          rw [hv] at h
          have hx : e.2 = x.val := by
            cases hee : e.2 <;> rw [hee] at hv <;> simp [Val.lit?] at hv
            rw [← hv]; rfl
          exact Broken.cons hs (by rw [hx]; exact deepest_none k (s :: r) x h)
  | .itm n i :: r, m, h => by
    rw [deepest] at h
    cases hl : lits (elems m.fields n) with
    | nil => rw [hl] at h; cases h
    | cons x xs =>
      rw [hl] at h
      simp only at h
      cases hi : (x :: xs)[i]? with
      | none =>
        exact .inr (.inr ⟨[], n, i, r, m.id, m.fields, rfl, rfl, by rw [hl]; simp, by rw [hl]; exact List.getElem?_eq_none_iff.1 hi⟩)
      | some y =>
        rw [hi] at h
        exact Broken.cons (fun q => by rw [Lit.val, at?, hl, hi]) (deepest_none k r y h)

/-! ## Searching declarations -/

theorem topStep_empty {f : List Top} (hf : NoEmptyImport f) {l : Loc} (hi : l.importName = []) (hg : l.goPackage = false) :
    ∀ t ∈ f, (∀ i n b, t ≠ .msg i n b) → (∀ e, t ≠ .enum e) → (∀ s, t ≠ .svc s) → topStep l t = none := by
  intro t ht h1 h2 h3
  have := hf t ht
  cases t with
  | «import» i n =>
    simp only at this
    simp [topStep, hi, Ne.symm this]
  | opt o =>
    simp only at this
    simp only [topStep, hg, Bool.and_false, Bool.false_eq_true, if_false, hi, Option.map_eq_none_iff, List.find?_eq_none]
    intro v hv
    simpa using this v hv
  | msg i n b => exact absurd rfl (h1 i n b)
  | enum e => exact absurd rfl (h2 e)
  | svc s => exact absurd rfl (h3 s)
  | other => rfl

/-- A search that goes on at all elements but those of another one. -/
theorem findSome_congr {α β : Type} (l : List α) (f g : α → Option β) (h : ∀ a ∈ l, f a = g a) :
    l.findSome? f = l.findSome? g := by
  induction l with
  | nil => rfl
  | cons a l ih =>
    rw [List.findSome?_cons, List.findSome?_cons, h a (by simp), ih fun b hb => h b (by simp [hb])]

theorem nodeInfo_msg {f : List Top} (hf : NoEmptyImport f) (ml : MsgLoc) :
    nodeInfo f { message := some ml } =
      match f.findSome? fun t => match t with
        | .msg i m b => if m = ml.name then some (i, b) else none
        | _ => none with
      | some (i, b) => msgInfo ml.parts ml.nested ml.name i ml.name b
      | none => none := by
  have hstep : ∀ t ∈ f, topStep { message := some ml } t = match t with
      | .msg i n b => if n = ml.name then some (msgInfo ml.parts ml.nested ml.name i n b) else none
      | _ => none := by
    intro t ht
    cases t with
    | msg i n b => rfl
    | enum e => rfl
    | svc s => rfl
    | other => rfl
    | «import» i n => exact topStep_empty hf rfl rfl _ ht (by simp) (by simp) (by simp)
    | opt o => exact topStep_empty hf rfl rfl _ ht (by simp) (by simp) (by simp)
  unfold nodeInfo
  rw [findSome_congr _ _ _ hstep]
  clear hstep hf
  induction f with
  | nil => rfl
  | cons t f ih =>
    rw [List.findSome?_cons, List.findSome?_cons]
    cases t with
    | msg i n b =>
      by_cases hn : n = ml.name
      · simp [hn]
      · simp only [hn, if_false]; exact ih
    | enum e => exact ih
    | svc s => exact ih
    | other => exact ih
    | «import» i n => exact ih
    | opt o => exact ih

theorem msgInfo_inner (parts : MsgParts) : ∀ (ns : List String) (n : String) (i : Id) (body : List Decl) (j : Id)
    (b : List Decl) (id : Id), innerMsg (i, body) ns = some (j, b) →
    (b.findSome? (msgStep parts none)).getD (some j) = some id → msgInfo parts ns n i n body = some id
  | [], n, i, body, j, b, id, h, hb => by
    simp only [innerMsg, Option.some.injEq, Prod.mk.injEq] at h
    obtain ⟨rfl, rfl⟩ := h
    rw [msgInfo, if_pos rfl]
    exact hb
  | m :: ms, n, i, body, j, b, id, h, hb => by
    rw [msgInfo, if_pos rfl]
    rw [innerMsg] at h
    cases hx : nestedMsg (i, body).2 m with
    | none => rw [hx] at h; cases h
    | some x =>
      rw [hx] at h
      obtain ⟨i', body'⟩ := x
      have ih := msgInfo_inner parts ms m i' body' j b id h hb
      have hfind : body.findSome? (msgStep {} (some (msgInfo parts ms m))) = some (some id) := by
        clear h hb
        unfold nestedMsg at hx
        simp only at hx
        induction body with
        | nil => simp at hx
        | cons d ds ihd =>
          rw [List.findSome?_cons] at hx ⊢
          cases d with
          | msg k o c =>
            by_cases hn : o = m
            · subst hn
              simp only [if_true, Option.some.injEq, Prod.mk.injEq] at hx
              obtain ⟨rfl, rfl⟩ := hx
              simp [msgStep, ih]
            · simp only [hn, if_false] at hx
              have hnone : msgInfo parts ms m k o c = none := by
                cases ms <;> simp [msgInfo, hn]
              simp only [msgStep, hnone, Option.map_none]
              exact ihd hx
          | opt o => exact ihd hx
          | field o => exact ihd hx
          | oneof a ds' =>
            have : oneofInfo ds' {} = none := by
              unfold oneofInfo
              rw [List.findSome?_eq_none_iff.2]
              · rfl
              · intro x _; cases x <;> rfl
            simp only [msgStep, this, Option.map_none]
            exact ihd hx
          | enum e => exact ihd hx
          | other => exact ihd hx
      rw [hfind]
      rfl

/-- A message of a file, found by its path. -/
theorem nodeInfo_inner {f : List Top} (hf : NoEmptyImport f) {n : String} {nested : List String} {i : Id}
    {body : List Decl} (hm : message f n nested = some (i, body)) {parts : MsgParts} {id : Id}
    (hb : (body.findSome? (msgStep parts none)).getD (some i) = some id) :
    nodeInfo f { message := some ⟨n, nested, parts⟩ } = some id := by
  rw [nodeInfo_msg hf]
  unfold message at hm
  simp only at hm ⊢
  cases hx : f.findSome? fun t => match t with
    | .msg i m b => if m = n then some (i, b) else none
    | _ => none with
  | none => rw [hx] at hm; cases hm
  | some x =>
    rw [hx] at hm
    obtain ⟨j, b⟩ := x
    exact msgInfo_inner parts nested n j b i body id hm hb

/-! ## Options of messages -/

theorem body_option {body : List Decl} {p : MsgOptPart} {o : Opt} (i : Id) {id : Id}
    (ho : (options body).filter (·.named "grpc.federation.message") = [o]) (hid : messageOption o p = some id) :
    (body.findSome? (msgStep { option := some p } none)).getD (some i) = some id := by
  have key : ∀ body : List Decl, (options body).filter (·.named "grpc.federation.message") = [o] →
      body.findSome? (msgStep { option := some p } none) = some (some id) := by
    intro body
    induction body with
    | nil => intro h; simp [options] at h
    | cons d ds ih =>
      intro h
      rw [List.findSome?_cons]
      have hcons : options (d :: ds) = options [d] ++ options ds := by simp [options]
      rw [hcons, List.filter_append] at h
      cases d with
      | opt q =>
        by_cases hq : q.named "grpc.federation.message" = true
        · simp [options, hq] at h
          obtain ⟨rfl, _⟩ := h
          simp [msgStep, hq, hid]
        · simp [options, hq] at h
          simp only [msgStep, hq]
          exact ih (by simpa [options] using h)
      | field q => simp [options] at h; exact ih (by simpa [options] using h)
      | msg a b c => simp [options] at h; exact ih (by simpa [options] using h)
      | enum e => simp [options] at h; exact ih (by simpa [options] using h)
      | other => simp [options] at h; exact ih (by simpa [options] using h)
      | oneof a qs =>
        have hqs : ∀ qs : List OneofDecl, oneofInfo qs { option := some p } =
            match (qs.filterMap fun | OneofDecl.opt o => some o | .field _ => none).filter
              (·.named "grpc.federation.message") with
            | q :: _ => messageOption q p
            | [] => none := by
          intro qs
          unfold oneofInfo
          induction qs with
          | nil => rfl
          | cons q qs ihq =>
            rw [List.findSome?_cons]
            cases q with
            | field g => exact ihq
            | opt g =>
              by_cases hg : g.named "grpc.federation.message" = true
              · simp [oneofStep, hg]
              · simp only [oneofStep, hg]
                simp only [List.filterMap_cons, List.filter_cons, hg]
                exact ihq
        simp only [msgStep, hqs qs]
        have h' : (qs.filterMap fun | OneofDecl.opt o => some o | .field _ => none).filter
              (·.named "grpc.federation.message") ++ (options ds).filter (·.named "grpc.federation.message") = [o] := by
          simpa [options] using h
        cases hq : (qs.filterMap fun | OneofDecl.opt o => some o | .field _ => none).filter
              (·.named "grpc.federation.message") with
        | nil =>
          rw [hq] at h'
          simp only [Option.map_none]
          exact ih h'
        | cons q r =>
          rw [hq] at h'
          simp only [List.cons_append, List.cons.injEq] at h'
          obtain ⟨rfl, _⟩ := h'
          simp [hid]
  rw [key body ho]
  rfl

/-- C91: a part of the option of a message, for example the condition of a definition of a detail of an error of a
call, leads to its value, if it is searched and there is one option statement.  Missing: see the theorems below. -/
theorem C91_message_partial (f : List Top) (hf : NoEmptyImport f) (n : String) (nested : List String) (i : Id)
    (body : List Decl) (o : Opt) (k : Id) (fs : List (String × Val)) (p : MsgOptPart) (v : Val)
    (hm : message f n nested = some (i, body))
    (ho : (options body).filter (·.named "grpc.federation.message") = [o]) (hval : o.val = .msg k fs)
    (hp : p.searched = true) (hpath : p.path ≠ []) (hat : at? o.val p.path = some v) (hv : p.kind.ok v = true) :
    nodeInfo f { message := some ⟨n, nested, { option := some p }⟩ } = some v.id := by
  refine nodeInfo_inner hf hm (body_option i ho ?_)
  rw [messageOption_eq o p k fs hval hp]
  refine deepest_at p.kind p.path ⟨o.id, fs⟩ v ?_ hv
  rw [hval] at hat
  cases hpp : p.path with
  | nil => exact absurd hpp hpath
  | cons s r => rw [hpp] at hat; cases s <;> exact hat


theorem at_cons_msg (i j : Id) (fs : List (String × Val)) (s : Step) (r : List Step) :
    at? (.msg i fs) (s :: r) = at? (.msg j fs) (s :: r) := by cases s <;> rfl

theorem at_msg {i j : Id} {fs : List (String × Val)} {path : List Step} (h : path ≠ []) :
    at? (.msg i fs) path = at? (.msg j fs) path := by
  cases path with
  | nil => exact absurd rfl h
  | cons s r => exact at_cons_msg i j fs s r

/-- C91: a field of the option of a message that is not there, for example a missing name, leads to the message literal
it is missing in. -/
theorem C91_missing (f : List Top) (hf : NoEmptyImport f) (n : String) (nested : List String) (i : Id)
    (body : List Decl) (o : Opt) (k : Id) (fs : List (String × Val)) (p : MsgOptPart)
    (hm : message f n nested = some (i, body))
    (ho : (options body).filter (·.named "grpc.federation.message") = [o]) (hval : o.val = .msg k fs)
    (hp : p.searched = true) (pre : List Step) (x : String) (r : List Step) (j : Id) (gs : List (String × Val))
    (hpath : p.path = pre ++ .fld x :: r) (hpre : pre ≠ []) (hat : at? o.val pre = some (.msg j gs))
    (hx : ∀ e ∈ gs, e.1 ≠ x) :
    nodeInfo f { message := some ⟨n, nested, { option := some p }⟩ } = some j := by
  refine nodeInfo_inner hf hm (body_option i ho ?_)
  rw [messageOption_eq o p k fs hval hp, hpath]
  refine deepest_missing p.kind x r j gs hx pre ⟨o.id, fs⟩ ?_
  rw [Lit.val, ← hat, hval]
  exact at_msg hpre

theorem option_broken {o : Opt} {k : Id} {fs : List (String × Val)} {p : MsgOptPart} (hval : o.val = .msg k fs)
    (hp : p.searched = true) (h : messageOption o p = none) : Broken p.kind o.val p.path := by
  rw [messageOption_eq o p k fs hval hp] at h
  have := deepest_none p.kind p.path ⟨o.id, fs⟩ h
  rw [hval]
  cases hpath : p.path with
  | nil =>
    exfalso
    cases p with
    | none => simp [MsgOptPart.path, MsgOptPart.kind, deepest_message] at h
    | alias => simp [MsgOptPart.path] at hpath
    | «def» a b => simp [MsgOptPart.path] at hpath
  | cons s r =>
    rw [hpath] at this
    rcases this with ⟨w, h1, h2⟩ | ⟨pre, t, q, w, h1, h2, h3⟩ | ⟨pre, m, j, q, l, gs, h1, h2, h3, h4⟩
    · exact .inl ⟨w, by rw [← h1]; exact at_cons_msg _ _ _ _ _, h2⟩
    · cases pre with
      | nil => simp [at?, Lit.val] at h2; subst h2; simp [Val.lit?] at h3
      | cons a b => exact .inr (.inl ⟨a :: b, t, q, w, h1, by rw [← h2]; exact at_cons_msg _ _ _ _ _, h3⟩)
    · cases pre with
      | nil =>
        simp [at?, Lit.val] at h2
        exact .inr (.inr ⟨[], m, j, q, k, gs, h1, by simp [at?, h2.2], h3, h4⟩)
      | cons a b =>
        exact .inr (.inr ⟨a :: b, m, j, q, l, gs, h1, by rw [← h2]; exact at_cons_msg _ _ _ _ _, h3, h4⟩)

/-- C91: a part of the option of a message has a place, the option or a value on the path to the part, unless the path
can not be followed: see `Broken`. -/
theorem C91_somewhere (f : List Top) (hf : NoEmptyImport f) (n : String) (nested : List String) (i : Id)
    (body : List Decl) (o : Opt) (k : Id) (fs : List (String × Val)) (p : MsgOptPart)
    (hm : message f n nested = some (i, body))
    (ho : (options body).filter (·.named "grpc.federation.message") = [o]) (hval : o.val = .msg k fs)
    (hp : p.searched = true) (hb : ¬Broken p.kind o.val p.path) :
    ∃ id, nodeInfo f { message := some ⟨n, nested, { option := some p }⟩ } = some id ∧
      (id = o.id ∨ ∃ pre, pre <+: p.path ∧ ∃ v, at? o.val pre = some v ∧ v.id = id) := by
  cases hmo : messageOption o p with
  | none => exact absurd (option_broken hval hp hmo) hb
  | some id =>
    refine ⟨id, nodeInfo_inner hf hm (body_option i ho hmo), ?_⟩
    rw [messageOption_eq o p k fs hval hp] at hmo
    obtain ⟨pre, h1, v, h2, h3⟩ := deepest_on_path p.kind p.path ⟨o.id, fs⟩ id hmo
    cases pre with
    | nil => left; simp [at?, Lit.val] at h2; subst h2; exact h3.symm
    | cons s q =>
      right
      exact ⟨s :: q, h1, v, by rw [hval]; rw [← h2]; exact at_cons_msg _ _ _ _ _, h3⟩

/-! ## Fields -/

theorem body_field {body : List Decl} (l : FieldLoc) (i : Id) (g : Field) {id : Id}
    (hg : (fields body).find? (fun x => x.name = l.name) = some g) (hid : fieldInfo g l = some id) :
    (body.findSome? (msgStep { field := some l } none)).getD (some i) = some id := by
  have key : ∀ body : List Decl, (fields body).find? (fun x => x.name = l.name) = some g →
      body.findSome? (msgStep { field := some l } none) = some (some id) := by
    intro body
    induction body with
    | nil => intro h; simp [fields] at h
    | cons d ds ih =>
      intro h
      rw [List.findSome?_cons]
      have hcons : fields (d :: ds) = fields [d] ++ fields ds := by simp [fields]
      rw [hcons, List.find?_append] at h
      cases d with
      | field q =>
        by_cases hq : q.name = l.name
        · simp [fields, hq] at h
          subst h
          simp [msgStep, hq, hid]
        · simp [fields, hq] at h
          simp only [msgStep, hq]
          exact ih (by simpa [fields] using h)
      | opt q => simp [fields] at h; exact ih (by simpa [fields] using h)
      | msg a b c => simp [fields] at h; exact ih (by simpa [fields] using h)
      | enum e => simp [fields] at h; exact ih (by simpa [fields] using h)
      | other => simp [fields] at h; exact ih (by simpa [fields] using h)
      | oneof a qs =>
        have hqs : ∀ qs : List OneofDecl, oneofInfo qs { field := some l } =
            match (qs.filterMap fun | OneofDecl.field o => some o | .opt _ => none).find? (fun x => x.name = l.name) with
            | some q => fieldInfo q l
            | none => none := by
          intro qs
          unfold oneofInfo
          induction qs with
          | nil => rfl
          | cons q qs ihq =>
            rw [List.findSome?_cons]
            cases q with
            | opt g => exact ihq
            | field g =>
              by_cases hg : g.name = l.name
              · simp [oneofStep, hg]
              · simp only [oneofStep, hg, if_false]
                simp only [List.filterMap_cons, List.find?_cons, hg, decide_false]
                exact ihq
        simp only [msgStep, hqs qs]
        have h' : ((qs.filterMap fun | OneofDecl.field o => some o | .opt _ => none).find? (fun x => x.name = l.name)).or
            ((fields ds).find? fun x => x.name = l.name) = some g := by
          simpa [fields] using h
        cases hq : (qs.filterMap fun | OneofDecl.field o => some o | .opt _ => none).find? (fun x => x.name = l.name) with
        | none =>
          rw [hq] at h'
          simp only [Option.map_none]
          exact ih (by simpa using h')
        | some q =>
          rw [hq] at h'
          simp at h'
          subst h'
          simp [hid]
  rw [key body hg]
  rfl

/-- C91: a field leads to its declaration, and its type to its type. -/
theorem C91_field (f : List Top) (hf : NoEmptyImport f) (n : String) (nested : List String) (i : Id)
    (body : List Decl) (x : String) (g : Field) (hm : message f n nested = some (i, body))
    (hg : (fields body).find? (fun y => y.name = x) = some g) :
    nodeInfo f { message := some ⟨n, nested, { field := some { name := x } }⟩ } = some g.id ∧
    nodeInfo f { message := some ⟨n, nested, { field := some { name := x, type := true } }⟩ } = some g.typeId :=
  ⟨nodeInfo_inner hf hm (body_field _ i g hg rfl), nodeInfo_inner hf hm (body_field _ i g hg rfl)⟩

theorem fieldOneof_eq (m : Lit) (p : OneofPart) (h : p.searched = true)
    (hd : ∀ i d, p = .def i d → ∃ v, (m.fields.filter fun e => e.1 = "def") = [("def", v)] ∧ messages v ≠ []) :
    fieldOneof m p = deepest p.kind m p.path := by
  cases p with
  | none => exact (deepest_message m).symm
  | «if» => exact field_str m _
  | default => exact field_any m _
  | «by» => exact field_str m _
  | «def» i d =>
    obtain ⟨v, hv, hne⟩ := hd i d rfl
    rw [OneofPart.path, OneofPart.kind, deepest]
    have hl : lits (elems m.fields "def") = messages v := by
      rw [elems, hv, messages_eq]; simp
    have hfind : m.fields.find? (fun e => e.1 = "def") = some ("def", v) := by
      rw [← List.head?_filter, hv]; rfl
    simp only [fieldOneof, onField, hfind, hl]
    cases hmv : messages v with
    | nil => exact absurd hmv hne
    | cons y ys => exact defInfo_eq (y :: ys) i d h

/-- C91: a part of the option of a field leads to its value, if it is searched, there is one option statement for the
field, and the definitions of a oneof are written as one list.  Missing: see the theorems below. -/
theorem C91_field_option_partial (f : List Top) (hf : NoEmptyImport f) (n : String) (nested : List String) (i : Id)
    (body : List Decl) (x : String) (g : Field) (o : Opt) (k : Id) (fs : List (String × Val)) (p : FieldOptPart) (v : Val)
    (hm : message f n nested = some (i, body)) (hg : (fields body).find? (fun y => y.name = x) = some g)
    (ho : g.opts.filter (·.named "grpc.federation.field") = [o]) (hval : o.val = .msg k fs)
    (hname : o.ends "oneof" = false) (hp : p.searched = true) (hpath : p.path ≠ [])
    (hd : ∀ idx d j gs, p = .oneof (.def idx d) → at? o.val [.fld "oneof"] = some (.msg j gs) →
      ∃ w, (gs.filter fun e => e.1 = "def") = [("def", w)])
    (hat : at? o.val p.path = some v) (hv : p.kind.ok v = true) :
    nodeInfo f { message := some ⟨n, nested, { field := some { name := x, option := some p } }⟩ } = some v.id := by
  refine nodeInfo_inner hf hm (body_field _ i g hg ?_)
  have hfirst : g.opts.find? (fun o => o.named "grpc.federation.field") = some o := by
    rw [← List.head?_filter, ho]; rfl
  simp only [fieldInfo, hfirst]
  unfold fieldOption
  rw [hval]
  rw [hval] at hat hd
  cases p with
  | none => exact absurd rfl hpath
  | alias => cases hp
  | «by» =>
    have := deepest_at .string [.fld "by"] ⟨o.id, fs⟩ v hat hv
    rw [← field_str] at this
    exact this
  | oneof q =>
    simp only [hname, Bool.false_eq_true, if_false]
    have hat' := hat
    rw [FieldOptPart.path, at?] at hat
    cases he : fs.find? fun e => e.1 = "oneof" with
    | none => rw [he] at hat; cases hat
    | some e =>
      rw [he] at hat
      simp only at hat ⊢
      have hmsg : ∃ m : Lit, e.2 = m.val := by
        cases hq : q.path with
        | nil =>
          rw [hq, at?] at hat
          cases hat
          have := OneofPart.kind_of_nil hq
          rw [FieldOptPart.kind, this] at hv
          cases hee : e.2 <;> rw [hee] at hv <;> simp [Kind.ok] at hv
          exact ⟨⟨_, _⟩, rfl⟩
        | cons s r =>
          rw [hq] at hat
          cases hee : e.2 with
          | msg a b => exact ⟨⟨a, b⟩, rfl⟩
          | str a b => rw [hee] at hat; cases s <;> simp [at?] at hat
          | ident a => rw [hee] at hat; cases s <;> simp [at?] at hat
          | other a => rw [hee] at hat; cases s <;> simp [at?] at hat
          | arr a b => rw [hee] at hat; cases s <;> simp [at?] at hat
      obtain ⟨m, hm'⟩ := hmsg
      rw [hm'] at hat
      have hlit : onMsg (fun y => fieldOneof y q) e.2 = fieldOneof m q := by rw [hm']; rfl
      rw [hlit, fieldOneof_eq m q hp, deepest_at q.kind q.path m v hat hv]
      intro a b hq
      subst hq
      obtain ⟨w, hw⟩ := hd a b m.id m.fields rfl (by simp only [at?, he, hm']; rfl)
      refine ⟨w, hw, ?_⟩
      intro hmw
      rw [OneofPart.path, Lit.val, at?, elems, hw] at hat
      have : lits (List.flatMap (fun e : String × Val => e.2.elems) [("def", w)]) = [] := by
        rw [← hmw, messages_eq]; simp
      rw [this] at hat
      simp at hat

/-- C91: an expression written as `(grpc.federation.field).by = "..."` leads to the string. -/
theorem C91_field_by (f : List Top) (hf : NoEmptyImport f) (n : String) (nested : List String) (i : Id)
    (body : List Decl) (x : String) (g : Field) (o : Opt) (k : Id) (s : Text)
    (hm : message f n nested = some (i, body)) (hg : (fields body).find? (fun y => y.name = x) = some g)
    (ho : g.opts.filter (·.named "grpc.federation.field") = [o]) (hval : o.val = .str k s) (hname : o.ends "by" = true) :
    nodeInfo f { message := some ⟨n, nested, { field := some { name := x, option := some .by } }⟩ } = some k := by
  refine nodeInfo_inner hf hm (body_field _ i g hg ?_)
  have hfirst : g.opts.find? (fun o => o.named "grpc.federation.field") = some o := by
    rw [← List.head?_filter, ho]; rfl
  simp only [fieldInfo, hfirst, fieldOption, hval, hname, if_true]

end Verif.SrcLoc
