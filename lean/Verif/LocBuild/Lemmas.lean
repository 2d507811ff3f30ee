import Verif.LocBuild.Spec

namespace Verif.LocBuild

/-! ## Types of pointers -/

/-- The structures that the pointers of a structure lead to. -/
def kidKind : Kind → Fld → Option Kind
  | .location, .export => some .export
  | .location, .service => some .service
  | .location, .message => some .message
  | .location, .enum => some .enum
  | .export, .wasm => some .wasm
  | .export, .types => some .pluginType
  | .export, .functions => some .pluginFunction
  | .pluginType, .methods => some .pluginFunction
  | .pluginFunction, .args => some .pluginArg
  | .service, .method => some .method
  | .service, .option => some .serviceOption
  | .method, .option => some .methodOption
  | .serviceOption, .env => some .env
  | .serviceOption, .var => some .svcVar
  | .env, .var => some .envVar
  | .envVar, .option => some .envVarOption
  | .svcVar, .map => some .mapExpr
  | .svcVar, .message => some .messageExpr
  | .svcVar, .enum => some .enumExpr
  | .svcVar, .validation => some .svcValidation
  | .enum, .option => some .enumOption
  | .enum, .value => some .enumValue
  | .enumValue, .option => some .enumValueOption
  | .enumValueOption, .attr => some .attr
  | .message, .option => some .messageOption
  | .message, .field => some .field
  | .message, .enum => some .enum
  | .message, .oneof => some .oneof
  | .message, .nestedMessage => some .message
  | .field, .option => some .fieldOption
  | .fieldOption, .oneof => some .fieldOneof
  | .fieldOneof, .def => some .varDef
  | .messageOption, .def => some .varDef
  | .varDef, .map => some .mapExpr
  | .varDef, .call => some .call
  | .varDef, .message => some .messageExpr
  | .varDef, .enum => some .enumExpr
  | .varDef, .validation => some .validation
  | .mapExpr, .iterator => some .iterator
  | .mapExpr, .message => some .messageExpr
  | .mapExpr, .enum => some .enumExpr
  | .call, .request => some .request
  | .call, .retry => some .retry
  | .call, .error => some .grpcError
  | .messageExpr, .args => some .argument
  | .retry, .constant => some .retryConstant
  | .retry, .exponential => some .retryExponential
  | .validation, .error => some .grpcError
  | .grpcError, .def => some .varDef
  | .grpcError, .detail => some .detail
  | .detail, .def => some .varDef
  | .detail, .message => some .varDef
  | .detail, .preconditionFailure => some .precondition
  | .detail, .badRequest => some .badRequest
  | .detail, .localizedMessage => some .localized
  | _, _ => none

/-- The flags that `Clone` forgets. -/
def lossy : Kind → Fld → Bool
  | .location, .importName => true
  | .request, .if => true
  | .retry, .if => true
  | .grpcError, .ignoreAndResponse => true
  | .detail, .by => true
  | _, _ => false

theorem kidKind_followed {k : Kind} {f : Fld} {k' : Kind} (h : kidKind k f = some k') : f ∈ followed k := by
  unfold kidKind at h
  split at h <;> first | (simp [followed]; done) | cases h

theorem kidKind_request {k : Kind} {f : Fld} {k' : Kind} (h : kidKind k f = some k') : (k' = .request ↔ f = .request) ∧
    (k' = .retry ↔ f = .retry) ∧ (k' = .grpcError ↔ f = .error) ∧ (k' = .detail ↔ f = .detail) ∧ k' ≠ .location := by
  unfold kidKind at h
  split at h <;> first | (cases h; simp; done) | cases h

/-! ## Trees in the heap -/

/-- The heap is well-typed. -/
structure Good (H : Heap) : Prop where
  kid : ∀ (x : Nat) (nd : Node), H[x]? = some nd → ∀ (f : Fld) (b : Nat), nd.kid f = some b →
    ∃ nb, H[b]? = some nb ∧ kidKind nd.kind f = some nb.kind
  arg : ∀ (x : Nat) (nd : Node), H[x]? = some nd → keepArg nd.kind nd.arg = nd.arg
  val : ∀ (x : Nat) (nd : Node), H[x]? = some nd → ∀ (f : Fld), nd.val f ≠ none → f ∈ copied nd.kind ∨ lossy nd.kind f = true

/-- The heaps are the same at the places of the first. -/
def Ext (H H' : Heap) : Prop := H.length ≤ H'.length ∧ ∀ x, x < H.length → H'[x]? = H[x]?

theorem Ext.refl (H : Heap) : Ext H H := ⟨Nat.le_refl _, fun _ _ => rfl⟩
theorem Ext.trans {A B C : Heap} (h1 : Ext A B) (h2 : Ext B C) : Ext A C :=
  ⟨Nat.le_trans h1.1 h2.1, fun x hx => (h2.2 x (Nat.lt_of_lt_of_le hx h1.1)).trans (h1.2 x hx)⟩

theorem Ext.append (H L : Heap) : Ext H (H ++ L) :=
  ⟨by simp, fun x hx => by rw [List.getElem?_append_left hx]⟩

theorem lt_of_get {H : Heap} {x : Nat} {nd : Node} (h : H[x]? = some nd) : x < H.length := by
  rw [List.getElem?_eq_some_iff] at h
  exact h.1

theorem Ext.get {H H' : Heap} (h : Ext H H') {x : Nat} {nd : Node} (hx : H[x]? = some nd) : H'[x]? = some nd := by
  rw [h.2 x (lt_of_get hx)]; exact hx

theorem find_ext {H H' : Heap} (hg : Good H) (he : Ext H H') : ∀ (p : Path) (a : Nat), a < H.length → find H' a p = find H a p
  | [], _, _ => rfl
  | f :: p, a, ha => by
    simp only [find, he.2 a ha]
    cases h : H[a]? with
    | none => rfl
    | some nd =>
      simp only
      cases hk : nd.kid f with
      | none => rfl
      | some b =>
        obtain ⟨nb, hb, _⟩ := hg.kid a nd h f b hk
        exact find_ext hg he p b (lt_of_get hb)

theorem find_lt {H : Heap} (hg : Good H) : ∀ (p : Path) (a x : Nat), a < H.length → find H a p = some x → x < H.length
  | [], a, x, ha, h => by simp only [find, Option.some.injEq] at h; omega
  | f :: p, a, x, ha, h => by
    simp only [find] at h
    cases hn : H[a]? with
    | none => rw [hn] at h; cases h
    | some nd =>
      rw [hn] at h
      simp only at h
      cases hk : nd.kid f with
      | none => rw [hk] at h; cases h
      | some b =>
        rw [hk] at h
        obtain ⟨nb, hb, _⟩ := hg.kid a nd hn f b hk
        exact find_lt hg p b x (lt_of_get hb) h

theorem find_append (H : Heap) : ∀ (p q : Path) (a : Nat), find H a (p ++ q) = (find H a p).bind fun x => find H x q
  | [], q, a => rfl
  | f :: p, q, a => by
    simp only [List.cons_append, find]
    cases H[a]? with
    | none => rfl
    | some nd =>
      simp only
      cases nd.kid f with
      | none => rfl
      | some b => exact find_append H p q b

/-- What is at a path, without the pointers. -/
structure Info where
  kind : Kind
  arg : Arg
  val : Fld → Option Arg

def Node.info (nd : Node) : Info := ⟨nd.kind, nd.arg, nd.val⟩

def view (H : Heap) (a : Nat) (p : Path) : Option Info := ((find H a p).bind (H[·]?)).map Node.info

theorem view_ext {H H' : Heap} (hg : Good H) (he : Ext H H') {a : Nat} (ha : a < H.length) (p : Path) : view H' a p = view H a p := by
  unfold view
  rw [find_ext hg he p a ha]
  cases h : find H a p with
  | none => rfl
  | some x => simp only [Option.bind_some, he.2 x (find_lt hg p a x ha h)]

theorem view_cons {H : Heap} {a : Nat} {nd : Node} (h : H[a]? = some nd) (f : Fld) (p : Path) :
    view H a (f :: p) = (nd.kid f).bind fun b => view H b p := by
  unfold view
  simp only [find, h]
  cases nd.kid f <;> rfl

theorem view_nil {H : Heap} {a : Nat} {nd : Node} (h : H[a]? = some nd) : view H a [] = some nd.info := by
  unfold view
  simp [find, h]

theorem view_some {H : Heap} (hg : Good H) {a : Nat} (ha : a < H.length) {p : Path} {x : Nat} (h : find H a p = some x) :
    ∃ nd, H[x]? = some nd ∧ view H a p = some nd.info := by
  have hx := find_lt hg p a x ha h
  refine ⟨H[x], by simp [hx], ?_⟩
  unfold view
  simp [h, hx]

theorem view_none {H : Heap} {a : Nat} {p : Path} (h : find H a p = none) : view H a p = none := by
  unfold view; simp [h]

theorem view_isSome {H : Heap} (hg : Good H) {a : Nat} (ha : a < H.length) (p : Path) :
    (∃ i, view H a p = some i) ↔ ∃ x, find H a p = some x := by
  constructor
  · rintro ⟨i, h⟩
    cases hf : find H a p with
    | none => rw [view_none hf] at h; cases h
    | some x => exact ⟨x, rfl⟩
  · rintro ⟨x, h⟩
    obtain ⟨nd, _, h2⟩ := view_some hg ha h
    exact ⟨_, h2⟩

/-- After `Clone`. -/
def Info.cut (i : Info) : Info := ⟨i.kind, keepArg i.kind i.arg, fun f => if f ∈ copied i.kind then i.val f else none⟩

theorem keepArg_idem (k : Kind) (a : Arg) : keepArg k (keepArg k a) = keepArg k a := by
  cases a with
  | none => rfl
  | idx i => by_cases h : Fld.idx ∈ copied k <;> simp [keepArg, h]
  | name s => by_cases h : Fld.name ∈ copied k <;> simp [keepArg, h]
  | idxName i s => by_cases h : Fld.idx ∈ copied k ∧ Fld.name ∈ copied k <;> simp [keepArg, h]
  | violation i j s => by_cases h : Fld.idx ∈ copied k ∧ Fld.name ∈ copied k <;> simp [keepArg, h]

/-- A fresh tree: all of it is from `lo` on, and no two paths lead to the same place. -/
structure Fresh (H : Heap) (lo a : Nat) : Prop where
  lt : a < H.length
  from_ : ∀ (p : Path) (x : Nat), find H a p = some x → lo ≤ x
  inj : ∀ (p q : Path) (x : Nat), find H a p = some x → find H a q = some x → p = q

theorem Fresh.ext {H H' : Heap} {lo a : Nat} (h : Fresh H lo a) (hg : Good H) (he : Ext H H') : Fresh H' lo a :=
  ⟨Nat.lt_of_lt_of_le h.lt he.1, fun p x hx => h.from_ p x (by rwa [find_ext hg he p a h.lt] at hx),
    fun p q x h1 h2 => h.inj p q x (by rwa [find_ext hg he p a h.lt] at h1) (by rwa [find_ext hg he q a h.lt] at h2)⟩

/-- `Clone` makes a fresh copy. -/
def CloneOk (H H' : Heap) (a a' : Nat) : Prop :=
  Ext H H' ∧ Good H' ∧ Fresh H' H.length a' ∧ ∀ p, view H' a' p = (view H a p).map Info.cut

def Depth (H : Heap) (a n : Nat) : Prop := ∀ (p : Path) (x : Nat), find H a p = some x → p.length < n

theorem cloneKids_ok {cl : Heap → Nat → Option (Heap × Nat)} {H0 : Heap} (hg0 : Good H0)
    {kid : Fld → Option Nat} (hkid : ∀ f a, kid f = some a → a < H0.length)
    (hcl : ∀ H f a, Good H → Ext H0 H → kid f = some a → ∃ H' a', cl H a = some (H', a') ∧ CloneOk H H' a a') :
    ∀ (fs : List Fld) (H : Heap), Good H → Ext H0 H → ∃ H' kid', cloneKids cl kid fs H = some (H', kid') ∧ Ext H H' ∧ Good H' ∧
      (∀ f, f ∉ fs → kid' f = none) ∧
      (∀ f ∈ fs, kid f = none → kid' f = none) ∧
      (∀ f ∈ fs, ∀ a, kid f = some a → ∃ b, kid' f = some b ∧ Fresh H' H.length b ∧ ∀ p, view H' b p = (view H0 a p).map Info.cut) ∧
      (∀ f g b c p q x, kid' f = some b → kid' g = some c → find H' b p = some x → find H' c q = some x → f = g)
  | [], H, hg, he => ⟨H, fun _ => none, rfl, Ext.refl H, hg, fun _ _ => rfl, fun _ h => (by cases h), fun _ h => (by cases h),
      fun _ _ _ _ _ _ _ h => (by cases h)⟩
  | f :: fs, H, hg, he => by
    simp only [cloneKids]
    cases hk : kid f with
    | none =>
      obtain ⟨H', kid', h1, h2, h3, h4, h5, h6, h7⟩ := cloneKids_ok hg0 hkid hcl fs H hg he
      refine ⟨H', kid', h1, h2, h3, fun g hg' => h4 g (fun h => hg' (by simp [h])), ?_, ?_, h7⟩
      · intro g hm hn
        by_cases hin : g ∈ fs
        · exact h5 g hin hn
        · exact h4 g hin
      · intro g hm a ha
        rcases List.mem_cons.1 hm with rfl | hm
        · rw [hk] at ha; cases ha
        · exact h6 g hm a ha
    | some a =>
      obtain ⟨H1, b, hc1, hc2, hc3, hc4, hc5⟩ := hcl H f a hg he hk
      obtain ⟨H', kid', h1, h2, h3, h4, h5, h6, h7⟩ := cloneKids_ok hg0 hkid hcl fs H1 hc3 (he.trans hc2)
      simp only [hc1, h1]
      have hlow : ∀ g c q x, kid' g = some c → find H' c q = some x → H1.length ≤ x := by
        intro g c q x hgc hx
        by_cases hin : g ∈ fs
        · cases hkg : kid g with
          | none => rw [h5 g hin hkg] at hgc; cases hgc
          | some a2 =>
            obtain ⟨b2, hb2, hf2, _⟩ := h6 g hin a2 hkg
            rw [hgc, Option.some.injEq] at hb2
            subst hb2
            exact hf2.from_ q x hx
        · rw [h4 g hin] at hgc; cases hgc
      have hhigh : ∀ p x, find H' b p = some x → x < H1.length := by
        intro p x hx
        rw [find_ext hc3 h2 p b hc4.lt] at hx
        exact find_lt hc3 p b x hc4.lt hx
      refine ⟨H', _, rfl, hc2.trans h2, h3, ?_, ?_, ?_, ?_⟩
      · intro g hg'
        simp only [List.mem_cons, not_or] at hg'
        simp only [if_neg hg'.1]
        exact h4 g hg'.2
      · intro g hm hn
        have hne : g ≠ f := by rintro rfl; rw [hk] at hn; cases hn
        simp only [if_neg hne]
        exact h5 g (by rcases List.mem_cons.1 hm with h | h; exact absurd h hne; exact h) hn
      · intro g hm a2 ha2
        by_cases hgf : g = f
        · subst hgf
          rw [hk, Option.some.injEq] at ha2
          subst ha2
          refine ⟨b, by simp, hc4.ext hc3 h2, fun p => ?_⟩
          rw [view_ext hc3 h2 hc4.lt, hc5, view_ext hg0 he (hkid _ _ hk)]
        · have hin : g ∈ fs := by
            rcases List.mem_cons.1 hm with h | h
            · exact absurd h hgf
            · exact h
          obtain ⟨b2, hb2, hf2, hv2⟩ := h6 g hin a2 ha2
          refine ⟨b2, by simp [hgf, hb2], ⟨hf2.lt, fun p x hx => Nat.le_trans hc2.1 (hf2.from_ p x hx), hf2.inj⟩, hv2⟩
      · intro f1 f2 b1 b2 p q x e1 e2 g1 g2
        by_cases h1f : f1 = f
        · by_cases h2f : f2 = f
          · rw [h1f, h2f]
          · simp only [if_pos h1f, Option.some.injEq] at e1
            simp only [if_neg h2f] at e2
            subst e1
            have := hlow f2 b2 q x e2 g2
            have := hhigh p x g1
            omega
        · by_cases h2f : f2 = f
          · simp only [if_neg h1f] at e1
            simp only [if_pos h2f, Option.some.injEq] at e2
            subst e2
            have := hlow f1 b1 p x e1 g1
            have := hhigh q x g2
            omega
          · simp only [if_neg h1f] at e1
            simp only [if_neg h2f] at e2
            exact h7 f1 f2 b1 b2 p q x e1 e2 g1 g2

theorem clone_ok : ∀ (n : Nat) (H : Heap) (a : Nat), Good H → a < H.length → Depth H a n →
    ∃ H' a', clone n H a = some (H', a') ∧ CloneOk H H' a a'
  | 0, H, a, hg, ha, hd => absurd (hd [] a rfl) (by simp)
  | n + 1, H, a, hg, ha, hd => by
    have hget : H[a]? = some H[a] := by simp [ha]
    obtain ⟨nd, hnd⟩ : ∃ nd, H[a]? = some nd := ⟨_, hget⟩
    have hkid : ∀ f b, nd.kid f = some b → b < H.length := fun f b hb => by
      obtain ⟨nb, h, _⟩ := hg.kid a nd hnd f b hb
      exact lt_of_get h
    obtain ⟨H1, kid', h1, h2, h3, h4, h5, h6, h7⟩ := cloneKids_ok (cl := clone n) hg hkid (fun H2 f b hg2 he2 hb => by
      have hbl := hkid f b hb
      obtain ⟨H', a', e1, e2⟩ := clone_ok n H2 b hg2 (Nat.lt_of_lt_of_le hbl he2.1) (fun p x hx => by
        rw [find_ext hg he2 p b hbl] at hx
        have := hd (f :: p) x (by simp only [find, hnd, hb]; exact hx)
        simp at this
        exact this)
      exact ⟨H', a', e1, e2⟩) (followed nd.kind) H hg (Ext.refl H)
    simp only [clone, hnd, h1]
    have he : Ext H1 (H1 ++ [⟨nd.kind, keepArg nd.kind nd.arg, fun f => if f ∈ copied nd.kind then nd.val f else none, kid'⟩]) :=
      Ext.append _ _
    have hnew : (H1 ++ [⟨nd.kind, keepArg nd.kind nd.arg, fun f => if f ∈ copied nd.kind then nd.val f else none, kid'⟩])[H1.length]? =
        some ⟨nd.kind, keepArg nd.kind nd.arg, fun f => if f ∈ copied nd.kind then nd.val f else none, kid'⟩ := by simp
    have hkids : ∀ f, (∃ a b, nd.kid f = some a ∧ kid' f = some b ∧ Fresh H1 H.length b ∧
        ∀ p, view H1 b p = (view H a p).map Info.cut) ∨ (nd.kid f = none ∧ kid' f = none) := by
      intro f
      cases hk : nd.kid f with
      | none =>
        refine .inr ⟨rfl, ?_⟩
        by_cases hin : f ∈ followed nd.kind
        · exact h5 f hin hk
        · exact h4 f hin
      | some a2 =>
        obtain ⟨nb, hb, hty⟩ := hg.kid a nd hnd f a2 hk
        obtain ⟨b, hb2, hfr, hv⟩ := h6 f (kidKind_followed hty) a2 hk
        exact .inl ⟨a2, b, rfl, hb2, hfr, hv⟩
    have hgood : Good (H1 ++ [⟨nd.kind, keepArg nd.kind nd.arg, fun f => if f ∈ copied nd.kind then nd.val f else none, kid'⟩]) := by
      have hcase : ∀ (x : Nat) (n2 : Node), (H1 ++ [⟨nd.kind, keepArg nd.kind nd.arg, fun f => if f ∈ copied nd.kind then nd.val f else none, kid'⟩])[x]? =
          some n2 → H1[x]? = some n2 ∨
          n2 = ⟨nd.kind, keepArg nd.kind nd.arg, fun f => if f ∈ copied nd.kind then nd.val f else none, kid'⟩ := by
        intro x n2 hx
        by_cases hlt : x < H1.length
        · rw [List.getElem?_append_left hlt] at hx
          exact .inl hx
        · have := lt_of_get hx
          simp only [List.length_append, List.length_singleton] at this
          have : x = H1.length := by omega
          subst this
          rw [hnew, Option.some.injEq] at hx
          exact .inr hx.symm
      constructor
      · intro x n2 hx f b hb
        rcases hcase x n2 hx with hx | rfl
        · obtain ⟨nb, h, ht⟩ := h3.kid x n2 hx f b hb
          exact ⟨nb, he.get h, ht⟩
        · simp only at hb
          rcases hkids f with ⟨a2, b2, e1, e2, e3, e4⟩ | ⟨_, e2⟩
          · rw [hb, Option.some.injEq] at e2
            subst e2
            obtain ⟨nb0, hb0, hty⟩ := hg.kid a nd hnd f a2 e1
            have hv := e4 []
            have hlt := e3.lt
            have hgb : H1[b]? = some H1[b] := by simp [hlt]
            rw [view_nil hgb, view_nil hb0] at hv
            simp only [Option.map_some, Option.some.injEq] at hv
            refine ⟨H1[b], he.get hgb, ?_⟩
            rw [hty]
            have := congrArg Info.kind hv
            simp only [Node.info, Info.cut] at this
            rw [this]
          · rw [hb] at e2; cases e2
      · intro x n2 hx
        rcases hcase x n2 hx with hx | rfl
        · exact h3.arg x n2 hx
        · exact keepArg_idem _ _
      · intro x n2 hx f hf
        rcases hcase x n2 hx with hx | rfl
        · exact h3.val x n2 hx f hf
        · simp only at hf
          by_cases hc : f ∈ copied nd.kind
          · exact .inl hc
          · rw [if_neg hc] at hf; exact absurd rfl hf
    refine ⟨_, _, rfl, h2.trans he, hgood, ⟨by simp, ?_, ?_⟩, ?_⟩
    · intro p x hx
      cases p with
      | nil => simp only [find, Option.some.injEq] at hx; have := h2.1; omega
      | cons f p =>
        simp only [find, hnew] at hx
        rcases hkids f with ⟨a2, b2, e1, e2, e3, e4⟩ | ⟨_, e2⟩
        · rw [e2] at hx
          simp only at hx
          rw [find_ext h3 he p b2 e3.lt] at hx
          exact e3.from_ p x hx
        · rw [e2] at hx; cases hx
    · have hbelow : ∀ f p x, find (H1 ++ [⟨nd.kind, keepArg nd.kind nd.arg, fun f => if f ∈ copied nd.kind then nd.val f else none, kid'⟩])
          H1.length (f :: p) = some x → ∃ b, kid' f = some b ∧ Fresh H1 H.length b ∧ find H1 b p = some x := by
        intro f p x hx
        simp only [find, hnew] at hx
        rcases hkids f with ⟨a2, b2, e1, e2, e3, e4⟩ | ⟨_, e2⟩
        · rw [e2] at hx
          simp only at hx
          rw [find_ext h3 he p b2 e3.lt] at hx
          exact ⟨b2, e2, e3, hx⟩
        · rw [e2] at hx; cases hx
      intro p q x hp hq
      cases p with
      | nil =>
        cases q with
        | nil => rfl
        | cons g q =>
          obtain ⟨b, hbg, hfr, hb⟩ := hbelow g q x hq
          have := find_lt h3 q b x hfr.lt hb
          simp only [find, Option.some.injEq] at hp
          omega
      | cons f p =>
        obtain ⟨b, hbf, hfr, hb⟩ := hbelow f p x hp
        cases q with
        | nil =>
          have := find_lt h3 p b x hfr.lt hb
          simp only [find, Option.some.injEq] at hq
          omega
        | cons g q =>
          obtain ⟨c, hcf, hfr2, hc⟩ := hbelow g q x hq
          have hfg := h7 f g b c p q x hbf hcf hb hc
          subst hfg
          rw [hbf, Option.some.injEq] at hcf
          subst hcf
          rw [hfr.inj p q x hb hc]
    · intro p
      cases p with
      | nil => rw [view_nil hnew, view_nil hnd]; rfl
      | cons f p =>
        rw [view_cons hnew, view_cons hnd]
        rcases hkids f with ⟨a2, b2, e1, e2, e3, e4⟩ | ⟨e1, e2⟩
        · simp only [e1, e2, Option.bind_some]
          rw [view_ext h3 he e3.lt, e4]
        · simp [e1, e2]

end Verif.LocBuild
