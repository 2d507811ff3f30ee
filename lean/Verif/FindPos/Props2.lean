import Verif.FindPos.Props
import Verif.FindPos.Lemmas4

/-! # C109: what is written at a position is found -/

namespace Verif.FindPos

open SrcLoc

/-- What is before a part of a file does not contain the position. -/
def Before (at_ : Id → Bool) (r : Root) (R : List Root) : Prop := ∀ A B, R = A ++ B → r ∈ B → ∀ a ∈ A, Quiet at_ a

theorem Before.sub {at_ : Id → Bool} {r : Root} {R X Y Z : List Root} (h : Before at_ r R) (hR : R = X ++ (Y ++ Z)) :
    Before at_ r Y := by
  intro A B hY hr a ha
  refine h (X ++ A) (B ++ Z) (by rw [hR, hY]; simp) (by simp [hr]) a (by simp [ha])

theorem Before.pre {at_ : Id → Bool} {r : Root} {R X Y : List Root} (h : Before at_ r R) (hR : R = X ++ Y) (hr : r ∈ Y) :
    ∀ a ∈ X, Quiet at_ a := h X Y hR hr

theorem spread_before {span : Id → Span} {f : List Top} (hs : Spread span f) {pos : Pos} {r : Root} (hr : In span r.id pos) :
    Before (fun i => contains (span i) pos) r (roots f) := by
  intro A B hAB hB a ha
  have hp := hs.apart
  rw [hAB] at hp
  have hd := (List.pairwise_append.1 hp).2.2 a ha r hB
  have hn : contains (span a.id) pos = false := by
    cases hc : contains (span a.id) pos with
    | false => rfl
    | true => exact absurd ⟨(in_contains _ _ _).2 hc, hr⟩ (hd pos)
  cases a with
  | node i => exact hn
  | val v => exact ((hs.vals v (by rw [hAB]; simp [ha])).1.at_ pos).clear hn

theorem body_quiet' {at_ maps : Id → Bool} {pre : List Decl} (h : ∀ r ∈ bodyRoots pre, Quiet at_ r) (path : String × List String)
    (k : Option String) (ds : List Decl) :
    findBody at_ maps path k (pre ++ ds) = findBody at_ maps path (after maps k pre) ds :=
  body_quiet _ pre (Nat.lt_succ_self _) path k ds h

theorem lastOf_nil {k : Option String} : ∀ {fs : List OneofDecl}, (fs.filterMap fun | .field f => some f | .opt _ => none) = [] →
    lastOf k fs = k
  | [], _ => rfl
  | .opt o :: fs, h => lastOf_nil (fs := fs) h
  | .field g :: fs, h => by simp at h

theorem after_nil {maps : Id → Bool} {k : Option String} : ∀ {ds : List Decl}, fields ds = [] → after maps k ds = k
  | [], _ => rfl
  | .field g :: ds, h => by simp [fields] at h
  | .oneof n fs :: ds, h => by
    simp only [fields, List.flatMap_cons, List.append_eq_nil_iff] at h
    rw [after, lastOf_nil h.1]
    exact after_nil h.2
  | .opt o :: ds, h => by simp only [after]; exact after_nil (by simpa [fields] using h)
  | .msg i n b :: ds, h => by simp only [after]; exact after_nil (by simpa [fields] using h)
  | .enum e :: ds, h => by simp only [after]; exact after_nil (by simpa [fields] using h)
  | .other :: ds, h => by simp only [after]; exact after_nil (by simpa [fields] using h)

/-- Before what is not plain there are no fields. -/
theorem tidy_after {maps : Id → Bool} {body pre post : List Decl} {d : Decl} (ht : TidyMsg body) (hb : body = pre ++ d :: post)
    (hd : plain d = false) : after maps none pre = none := by
  refine after_nil ?_
  cases hf : fields pre with
  | nil => rfl
  | cons g gs =>
    rw [ht.last pre d post hb (by rw [hf]; simp)] at hd
    cases hd

theorem nested_split {body : List Decl} {x : String} {j : Id} {b : List Decl} (h : nestedMsg body x = some (j, b)) :
    ∃ pre post, body = pre ++ .msg j x b :: post := by
  obtain ⟨d, hd, hs⟩ := findSome_some h
  cases d with
  | msg i n c =>
    simp only at hs
    split at hs
    · rename_i hn
      cases hs
      subst hn
      exact List.append_of_mem hd
    · cases hs
  | _ => cases hs

theorem inner_roots : ∀ (ns : List String) (m : Id × List Decl) (i : Id) (body : List Decl), innerMsg m ns = some (i, body) →
    ∀ r ∈ bodyRoots body, r ∈ bodyRoots m.2
  | [], m, i, body, h, r, hr => by
    simp only [innerMsg, Option.some.injEq] at h
    subst h; exact hr
  | x :: ns, m, i, body, h, r, hr => by
    simp only [innerMsg] at h
    split at h
    · rename_i y hy
      obtain ⟨j, b⟩ := y
      obtain ⟨pre, post, hb⟩ := nested_split hy
      have := inner_roots ns (j, b) i body h r hr
      rw [hb, bodyRoots_append, bodyRoots]
      simp only at this
      simp [this]
    · cases h

theorem inner_reach {at_ maps : Id → Bool} {r : Root} {n : String} {l : Loc} : ∀ (ns path : List String) (m : Id × List Decl) (i : Id)
    (body : List Decl), innerMsg m ns = some (i, body) → Before at_ r (bodyRoots m.2) → r ∈ bodyRoots body →
    (∀ ns' i' b', innerMsg m ns' = some (i', b') → TidyMsg b') →
    findBody at_ maps (n, path ++ ns) none body = some l → findBody at_ maps (n, path) none m.2 = some l
  | [], path, m, i, body, h, _, _, _, hl => by
    simp only [innerMsg, Option.some.injEq] at h
    subst h
    simpa using hl
  | x :: ns, path, m, i, body, h, hbef, hr, ht, hl => by
    simp only [innerMsg] at h
    split at h
    · rename_i y hy
      obtain ⟨j, b⟩ := y
      obtain ⟨pre, post, hb⟩ := nested_split hy
      have hroots : bodyRoots m.2 = bodyRoots pre ++ (bodyRoots b ++ bodyRoots post) := by
        rw [hb, bodyRoots_append, bodyRoots]
      have hrb := inner_roots ns (j, b) i body h r hr
      have ih := inner_reach ns (path ++ [x]) (j, b) i body h (hbef.sub hroots) hr
        (fun ns' i' b' h' => ht (x :: ns') i' b' (by simp only [innerMsg]; rw [hy]; exact h'))
        (by rw [List.append_assoc]; exact hl)
      have hpre := hbef.pre hroots (by simp only at hrb; simp [hrb])
      rw [hb, body_quiet' hpre, tidy_after (ht [] m.1 m.2 rfl) hb rfl, findBody, ih]
    · cases h

/-- What is found in a message is found in the file. -/
theorem message_reach {span : Id → Span} {maps : Id → Bool} {f : List Top} {pos : Pos} (hs : Spread span f) (ht : Tidy f)
    {n : String} {nested : List String} {i : Id} {body : List Decl} (hm : message f n nested = some (i, body)) {r : Root}
    (hr : r ∈ bodyRoots body) (hin : In span r.id pos) {l : Loc}
    (hl : Before (fun i => contains (span i) pos) r (bodyRoots body) →
      findBody (fun i => contains (span i) pos) maps (n, nested) none body = some l) :
    find span maps f pos = some l := by
  have hbef := spread_before hs hin
  unfold message at hm
  split at hm
  · rename_i m hx
    obtain ⟨t, hmem, hsm⟩ := findSome_some hx
    cases t with
    | msg j x b =>
      simp only at hsm
      split at hsm
      · rename_i hxn
        cases hsm
        subst hxn
        obtain ⟨pre, post, rfl⟩ := List.append_of_mem hmem
        have hroots : roots (pre ++ .msg j x b :: post) = roots pre ++ (bodyRoots b ++ roots post) := by
          simp [roots, topRoots]
        have hrb := inner_roots nested (j, b) i body hm r hr
        have hpre := hbef.pre hroots (by simp only at hrb; simp [hrb])
        have hbb := hbef.sub hroots
        have htm : ∀ ns' i' b', innerMsg (j, b) ns' = some (i', b') → TidyMsg b' := fun ns' i' b' h' =>
          ht.msgs x ns' i' b' (by unfold message; rw [hx]; exact h')
        have hsub : Before (fun i => contains (span i) pos) r (bodyRoots body) := by
          have : ∀ (ns : List String) (m : Id × List Decl), innerMsg m ns = some (i, body) →
              Before (fun i => contains (span i) pos) r (bodyRoots m.2) → Before (fun i => contains (span i) pos) r (bodyRoots body) := by
            intro ns
            induction ns with
            | nil => intro m h hb'; simp only [innerMsg, Option.some.injEq] at h; subst h; exact hb'
            | cons y ns ih =>
              intro m h hb'
              simp only [innerMsg] at h
              split at h
              · rename_i z hz
                obtain ⟨j', b'⟩ := z
                obtain ⟨p, q, hpq⟩ := nested_split hz
                exact ih (j', b') h (hb'.sub (by rw [hpq, bodyRoots_append, bodyRoots]))
              · cases h
          exact this nested (j, b) hm hbb
        have key := inner_reach (maps := maps) nested [] (j, b) i body hm hbb hr htm (hl hsub)
        unfold find
        refine findSome_mid post (fun t ht' => top_quiet fun a ha => hpre a (List.mem_flatMap.2 ⟨t, ht', ha⟩)) ?_
        exact key
      · cases hsm
    | _ => cases hsm
  · cases hm

/-! ## Properties -/

/-- The strings of a definition, and the alias, of the option of a message are found where they are written. -/
theorem C109_option (span : Id → Span) (maps : Id → Bool) (f : List Top) (pos : Pos) (hs : Spread span f) (ht : Tidy f)
    (n : String) (nested : List String) (i : Id) (body : List Decl) (hm : message f n nested = some (i, body)) (o : Opt)
    (ho : Decl.opt o ∈ body) (hn : o.named "grpc.federation.message" = true) (hk : OptionKind o.val) (p : MsgOptPart) (id : Id)
    (hp : OptionText o p id) (hin : In span id pos) :
    find span maps f pos = some { message := some ⟨n, nested, { option := some p }⟩ } := by
  have hat := (in_contains _ _ _).1 hin
  obtain ⟨pre, post, hb⟩ := List.append_of_mem ho
  have hroots : bodyRoots body = bodyRoots pre ++ (Root.val o.val :: bodyRoots post) := by rw [hb, bodyRoots_append, bodyRoots]
  have hr : Root.val o.val ∈ bodyRoots body := by rw [hroots]; simp
  have hmem : Root.val o.val ∈ roots f := by
    unfold message at hm
    split at hm
    · rename_i m hx
      obtain ⟨t, htm, hsm⟩ := findSome_some hx
      cases t with
      | msg j x b =>
        simp only at hsm
        split at hsm
        · cases hsm
          exact List.mem_flatMap.2 ⟨_, htm, inner_roots nested (j, b) i body hm _ hr⟩
        · cases hsm
      | _ => cases hsm
    · cases hm
  obtain ⟨hl, ha⟩ := hs.vals _ hmem
  obtain ⟨hfind, hoat⟩ := optionText_at (placed_of hl ha pos) hk hp hat
  refine message_reach hs ht hm hr ((in_contains _ _ _).2 hoat) fun hbef => ?_
  rw [hb, body_quiet' (hbef.pre hroots (by simp)), tidy_after (ht.msgs _ _ _ _ hm) hb rfl, findBody, if_pos hn, hfind]
  rfl

/-- A search in a field, wherever it is declared in a message. -/
theorem field_reach {at_ maps : Id → Bool} {body : List Decl} {g : Field} (hg : g ∈ fields body) (hmap : maps g.id = false)
    {r : Root} (hr : r ∈ fieldRoots g) (hbef : Before at_ r (bodyRoots body)) {fl : FieldLoc}
    (hf : Before at_ r (fieldRoots g) → findField at_ g = some fl) (path : String × List String) (k : Option String) :
    findBody at_ maps path k body = some (inMsg path { field := some fl }) := by
  unfold fields at hg
  obtain ⟨d, hd, hgd⟩ := List.mem_flatMap.1 hg
  obtain ⟨pre, post, hb⟩ := List.append_of_mem hd
  cases d with
  | field g' =>
    simp only [List.mem_singleton] at hgd
    subst hgd
    have hroots : bodyRoots body = bodyRoots pre ++ (fieldRoots g ++ bodyRoots post) := by rw [hb, bodyRoots_append, bodyRoots]
    rw [hb, body_quiet' (hbef.pre hroots (by simp [hr])), findBody, hmap, hf (hbef.sub hroots)]
    rfl
  | oneof n fs =>
    simp only [List.mem_filterMap] at hgd
    obtain ⟨od, hod, hog⟩ := hgd
    cases od with
    | opt o => cases hog
    | field g' =>
      simp only [Option.some.injEq] at hog
      subst hog
      obtain ⟨fpre, fpost, hfs⟩ := List.append_of_mem hod
      have hroots : bodyRoots body = bodyRoots pre ++ (oneofRoots fs ++ bodyRoots post) := by rw [hb, bodyRoots_append, bodyRoots]
      have horoots : oneofRoots fs = oneofRoots fpre ++ (fieldRoots g' ++ oneofRoots fpost) := by rw [hfs]; simp [oneofRoots]
      have hobef := hbef.sub hroots
      have hfind : findOneof at_ fs = some fl := by
        have hq := hobef.pre horoots (by simp [hr])
        rw [hfs]
        unfold findOneof
        refine findSome_mid fpost (fun od hod' => ?_) (hf (hobef.sub horoots))
        cases od with
        | opt o => rfl
        | field g2 => exact field_quiet fun a ha => hq a (List.mem_flatMap.2 ⟨_, hod', ha⟩)
      rw [hb, body_quiet' (hbef.pre hroots (by rw [horoots]; simp [hr])), findBody, hfind]
  | _ => cases hgd

theorem fieldRoots_mem {body : List Decl} {g : Field} (hg : g ∈ fields body) {r : Root} (hr : r ∈ fieldRoots g) :
    r ∈ bodyRoots body := by
  unfold fields at hg
  obtain ⟨d, hd, hgd⟩ := List.mem_flatMap.1 hg
  obtain ⟨pre, post, hb⟩ := List.append_of_mem hd
  rw [hb, bodyRoots_append]
  cases d with
  | field g' =>
    simp only [List.mem_singleton] at hgd
    subst hgd
    simp [bodyRoots, hr]
  | oneof n fs =>
    simp only [List.mem_filterMap] at hgd
    obtain ⟨od, hod, hog⟩ := hgd
    cases od with
    | opt o => cases hog
    | field g' =>
      simp only [Option.some.injEq] at hog
      subst hog
      have : r ∈ oneofRoots fs := List.mem_flatMap.2 ⟨_, hod, hr⟩
      simp [bodyRoots, this]
  | _ => cases hgd

/-- The type of a field, also of a oneof, is found where it is written. -/
theorem C109_field_type (span : Id → Span) (maps : Id → Bool) (f : List Top) (pos : Pos) (hs : Spread span f) (ht : Tidy f)
    (n : String) (nested : List String) (i : Id) (body : List Decl) (hm : message f n nested = some (i, body)) (g : Field)
    (hg : g ∈ fields body) (hmap : maps g.id = false) (hin : In span g.typeId pos) :
    find span maps f pos = some { message := some ⟨n, nested, { field := some { name := g.name, type := true } }⟩ } := by
  have hr : Root.node g.typeId ∈ fieldRoots g := by simp [fieldRoots]
  refine message_reach (r := .node g.typeId) hs ht hm (fieldRoots_mem hg hr) hin fun hbef => ?_
  refine field_reach hg hmap hr hbef (fun hb => ?_) (n, nested) none
  have hq := hb.pre (X := optRoots g.opts) (Y := [.node g.typeId]) rfl (by simp)
  unfold findField
  have h1 : (g.opts.filter (·.named "grpc.federation.field")).findSome? (findFieldOption fun i => contains (span i) pos) = none := by
    rw [List.findSome?_eq_none_iff]
    intro o ho
    exact fieldOption_calm (opts_quiet hq (List.mem_filter.1 ho).1)
  rw [h1]
  simp [(in_contains _ _ _).1 hin]

/-- The expression of a field is found where it is written. -/
theorem C109_field_by (span : Id → Span) (maps : Id → Bool) (f : List Top) (pos : Pos) (hs : Spread span f) (ht : Tidy f)
    (n : String) (nested : List String) (i : Id) (body : List Decl) (hm : message f n nested = some (i, body)) (g : Field)
    (hg : g ∈ fields body) (hmap : maps g.id = false) (o : Opt) (ho : o ∈ g.opts) (hn : o.named "grpc.federation.field" = true)
    (hk : ∀ m, o.val.lit? = some m → Strs ["by"] m) (id : Id) (hp : ByText o id) (hin : In span id pos) :
    find span maps f pos = some { message := some ⟨n, nested, { field := some { name := g.name, option := some .by } }⟩ } := by
  have hat := (in_contains _ _ _).1 hin
  have hro : Root.val o.val ∈ fieldRoots g := by
    simp only [fieldRoots, optRoots, List.mem_append, List.mem_map]; exact .inl ⟨o, ho, rfl⟩
  have hr := fieldRoots_mem hg hro
  have hmem : Root.val o.val ∈ roots f := by
    unfold message at hm
    split at hm
    · rename_i m hx
      obtain ⟨t, htm, hsm⟩ := findSome_some hx
      cases t with
      | msg j x b =>
        simp only at hsm
        split at hsm
        · cases hsm
          exact List.mem_flatMap.2 ⟨_, htm, inner_roots nested (j, b) i body hm _ hr⟩
        · cases hsm
      | _ => cases hsm
    · cases hm
  obtain ⟨hl, ha⟩ := hs.vals _ hmem
  have hpl := placed_of hl ha pos
  have hfind : findFieldOption (fun i => contains (span i) pos) o = some .by ∧ contains (span o.val.id) pos = true := by
    cases hp with
    | @«by» j id fs s hv h =>
      rw [hv] at hpl ⊢
      have hkm := hk ⟨j, fs⟩ (by rw [hv]; rfl)
      have := fields_mid (m := ⟨j, fs⟩) (g := fun e => if e.1 = "by" then str (fun i => contains (span i) pos) e.2 FieldOptPart.by else none)
        (r := some .by) hpl h hat (fun e he hc => by
          split
          · rename_i hb
            exact str_clear _ (hkm e he (by rw [hb]; simp)) hc
          · rfl) (by rw [if_pos rfl]; exact str_at (at_ := fun i => contains (span i) pos) _ _ hat)
      unfold findFieldOption
      rw [hv]
      simp only at this ⊢
      rw [this]
      exact ⟨rfl, part_at hpl (.field h (.refl _)) hat⟩
    | @short id s hv h =>
      unfold findFieldOption
      rw [hv]
      simp [h, hat, Val.id]
  refine message_reach (r := .val o.val) hs ht hm hr ((in_contains _ _ _).2 hfind.2) fun hbef => ?_
  refine field_reach hg hmap hro hbef (fun hb => ?_) (n, nested) none
  obtain ⟨opre, opost, hos⟩ := List.append_of_mem ho
  have hq := hb.pre (X := optRoots opre) (Y := .val o.val :: (optRoots opost ++ [.node g.typeId]))
    (by simp [fieldRoots, optRoots, hos]) (by simp)
  unfold findField
  have h1 : (g.opts.filter (·.named "grpc.federation.field")).findSome? (findFieldOption fun i => contains (span i) pos) = some .by := by
    rw [hos, List.filter_append, List.filter_cons_of_pos (p := fun x : Opt => x.named "grpc.federation.field") hn]
    refine findSome_mid _ (fun o' ho' => ?_) hfind.1
    exact fieldOption_calm (opts_quiet hq (List.mem_filter.1 ho').1)
  rw [h1]

/-- An import is found where it is written. -/
theorem C109_import (span : Id → Span) (maps : Id → Bool) (f : List Top) (pos : Pos) (hs : Spread span f) (i : Id) (n : Text)
    (hm : Top.import i n ∈ f) (hin : In span i pos) : find span maps f pos = some { importName := n } := by
  obtain ⟨pre, post, rfl⟩ := List.append_of_mem hm
  have hbef := spread_before hs (r := .node i) hin
  have hroots : roots (pre ++ .import i n :: post) = roots pre ++ (.node i :: roots post) := by simp [roots, topRoots]
  have hpre := hbef.pre hroots (by simp)
  refine findSome_mid post (fun t ht' => top_quiet fun a ha => hpre a (List.mem_flatMap.2 ⟨t, ht', ha⟩)) ?_
  simp [findTop, (in_contains _ _ _).1 hin]

/-- The timeout of a method is found where it is written. -/
theorem C109_timeout (span : Id → Span) (maps : Id → Bool) (f : List Top) (pos : Pos) (hs : Spread span f) (s : Service)
    (hm : Top.svc s ∈ f) (r : Rpc) (hr : SvcDecl.rpc r ∈ s.decls) (o : Opt) (ho : o ∈ r.opts)
    (hn : o.named "grpc.federation.method" = true) (hk : ∀ m, o.val.lit? = some m → Strs ["timeout"] m) (id : Id)
    (hp : TimeoutText o id) (hin : In span id pos) :
    find span maps f pos = some { service := some { name := s.name, method := some { name := r.name, option := some .timeout } } } := by
  have hat := (in_contains _ _ _).1 hin
  obtain ⟨pre, post, rfl⟩ := List.append_of_mem hm
  obtain ⟨spre, spost, hsd⟩ := List.append_of_mem hr
  have hroots : roots (pre ++ .svc s :: post) = roots pre ++ (svcRoots s ++ roots post) := by simp [roots, topRoots]
  have hsroots : svcRoots s = svcRoots ⟨0, s.name, spre⟩ ++ (optRoots r.opts ++ svcRoots ⟨0, s.name, spost⟩) := by
    simp [svcRoots, hsd]
  have hro : Root.val o.val ∈ optRoots r.opts := List.mem_map.2 ⟨o, ho, rfl⟩
  have hrs : Root.val o.val ∈ svcRoots s := by rw [hsroots]; simp [hro]
  obtain ⟨hl, ha⟩ := hs.vals o.val (by rw [hroots]; simp [hrs])
  have hpl := placed_of hl ha pos
  have hfind : findMethodOption (fun i => contains (span i) pos) o = true ∧ contains (span o.val.id) pos = true := by
    cases hp with
    | @timeout j id fs t hv h =>
      rw [hv] at hpl ⊢
      have hkm := hk ⟨j, fs⟩ (by rw [hv]; rfl)
      have := fields_mid (m := ⟨j, fs⟩) (g := fun e => if e.1 = "timeout" then str (fun i => contains (span i) pos) e.2 () else none)
        (r := some ()) hpl h hat (fun e he hc => by
          split
          · rename_i hb
            exact str_clear _ (hkm e he (by rw [hb]; simp)) hc
          · rfl) (by rw [if_pos rfl]; exact str_at (at_ := fun i => contains (span i) pos) _ _ hat)
      unfold findMethodOption
      rw [hv]
      simp only at this ⊢
      rw [this]
      exact ⟨rfl, part_at hpl (.field h (.refl _)) hat⟩
    | @short id t hv h =>
      unfold findMethodOption
      rw [hv]
      simp [h, hat, Val.id]
  have hbef := spread_before hs (r := .val o.val) ((in_contains _ _ _).2 hfind.2)
  have hpre := hbef.pre hroots (by simp [hrs])
  refine findSome_mid post (fun t ht' => top_quiet fun a ha => hpre a (List.mem_flatMap.2 ⟨t, ht', ha⟩)) ?_
  have hsbef := hbef.sub hroots
  obtain ⟨k', hk'⟩ := svc_quiet (at_ := fun i => contains (span i) pos) (name := s.name) spre
    (hsbef.pre hsroots (by simp [hro])) none (.rpc r :: spost)
  rw [findTop, hsd, hk', findSvc, if_pos]
  · rfl
  · rw [List.any_eq_true]
    exact ⟨o, List.mem_filter.2 ⟨ho, hn⟩, hfind.1⟩

end Verif.FindPos
