import Verif.PlugTy.Model
import Verif.GoNames.Props

/-! # Properties of the functions of plugins (C99) -/

namespace Verif.PlugTy
open Verif.GoNames

/-! ### Specification -/

/-- The Go type of a declared type. -/
def Decl.go : Decl → Go
  | .kind k => .base k
  | .rep t => .slice t.go
  | .map k v => .map k.go v.go
  | .msg n => .ptr n
  | .enum n => .enum n
  | _ => .any

/-- Nothing is missing in a declared type. -/
def Decl.complete : Decl → Bool
  | .rep t => t.complete
  | .map k v => k.complete && v.complete
  | .kind _ => true
  | .msg _ => true
  | .enum _ => true
  | _ => false

/-- Is a type one that a list may have as its elements? -/
def Decl.leaf : Decl → Bool
  | .kind _ => true
  | .msg _ => true
  | .enum _ => true
  | _ => false

/-- Lists are lists of base types, messages or enums. -/
def Decl.flat : Decl → Bool
  | .rep t => t.leaf
  | .map k v => k.flat && v.flat
  | _ => true

/-- All messages and enums of a type are declared. -/
def Decl.declared (w : World) : Decl → Bool
  | .rep t => t.declared w
  | .map k v => k.declared w && v.declared w
  | .msg n => w.msgs n && !w.noPkg n
  | .enum n => w.enums n && !w.noPkg n
  | _ => true

def Decl.isMap : Decl → Bool
  | .map _ _ => true
  | _ => false

def Decl.isEnum : Decl → Bool
  | .enum _ => true
  | .rep (.enum _) => true
  | _ => false

/-- A declared type that can be told in Go as declared. -/
def Decl.good (w : World) (d : Decl) : Bool := d.complete && d.flat && d.declared w

/-! ### Types -/

/-- A list of something that is no list. -/
theorem text_slice {t : Ty} {g : Go} (h : typeText t = some (.slice g)) : (∀ u, g ≠ .slice u) ∧ ∀ k v, g ≠ .map k v := by
  cases t with
  | kind k r =>
    cases r with
    | false => simp [typeText, sliceIf] at h
    | true => simp only [typeText, sliceIf] at h; cases h; exact ⟨fun _ => by simp, fun _ _ => by simp⟩
  | map k v =>
    simp only [typeText] at h
    split at h <;> simp at h
  | msg n r =>
    cases n with
    | none => simp [typeText] at h
    | some n =>
      cases r with
      | false => simp [typeText, sliceIf] at h
      | true => simp only [typeText, sliceIf] at h; cases h; exact ⟨fun _ => by simp, fun _ _ => by simp⟩
  | enum n r =>
    cases n with
    | none => simp [typeText] at h
    | some n =>
      cases r with
      | false => simp [typeText, sliceIf] at h
      | true => simp only [typeText, sliceIf] at h; cases h; exact ⟨fun _ => by simp, fun _ _ => by simp⟩

theorem leaf_good {w : World} (r : Bool) {d : Decl} (hl : d.leaf = true) (hd : d.declared w = true) :
    ∃ t, resolveType w r d = .ok t ∧ typeText t = some (sliceIf r d.go) := by
  cases d with
  | kind k => exact ⟨_, rfl, rfl⟩
  | msg n =>
    simp only [Decl.declared, Bool.and_eq_true, Bool.not_eq_true'] at hd
    exact ⟨.msg (some n) r, by simp [resolveType, World.msg, hd.1, hd.2], rfl⟩
  | enum n =>
    simp only [Decl.declared, Bool.and_eq_true, Bool.not_eq_true'] at hd
    exact ⟨.enum (some n) r, by simp [resolveType, World.enum, hd.1, hd.2], rfl⟩
  | nil => cases hl
  | unset => cases hl
  | unknown => cases hl
  | rep t => cases hl
  | map k v => cases hl

theorem good_type {w : World} : ∀ {d : Decl}, d.good w = true →
    ∃ t, resolveType w false d = .ok t ∧ typeText t = some d.go := by
  intro d
  induction d with
  | nil => intro h; simp [Decl.good, Decl.complete] at h
  | unset => intro h; simp [Decl.good, Decl.complete] at h
  | unknown => intro h; simp [Decl.good, Decl.complete] at h
  | kind k => intro h; exact leaf_good false rfl rfl
  | msg n => intro h; simp only [Decl.good, Bool.and_eq_true] at h; exact leaf_good false rfl h.2
  | enum n => intro h; simp only [Decl.good, Bool.and_eq_true] at h; exact leaf_good false rfl h.2
  | rep t _ =>
    intro h
    simp only [Decl.good, Bool.and_eq_true] at h
    exact leaf_good true h.1.2 h.2
  | map k v ihk ihv =>
    intro h
    simp only [Decl.good, Decl.complete, Decl.flat, Decl.declared, Bool.and_eq_true] at h
    obtain ⟨tk, hk, ek⟩ := ihk (by simp [Decl.good, h.1.1.1, h.1.2.1, h.2.1])
    obtain ⟨tv, hv, ev⟩ := ihv (by simp [Decl.good, h.1.1.2, h.1.2.2, h.2.2])
    exact ⟨.map tk tv, by simp [resolveType, hk, hv], by simp [typeText, ek, ev, Decl.go]⟩

theorem leaf_back {w : World} {r : Bool} {d : Decl} {t : Ty} (hl : d.leaf = true) (h : resolveType w r d = .ok t) {g : Go}
    (hg : typeText t = some g) : d.declared w = true := by
  cases d with
  | kind k => rfl
  | msg n =>
    simp only [resolveType, World.msg] at h
    split at h
    · cases h
    · split at h
      · simp_all [Decl.declared]
      · cases h; simp [typeText] at hg
  | enum n =>
    simp only [resolveType, World.enum] at h
    split at h
    · cases h
    · split at h
      · simp_all [Decl.declared]
      · cases h; simp [typeText] at hg
  | nil => cases hl
  | unset => cases hl
  | unknown => cases hl
  | rep t => cases hl
  | map k v => cases hl

theorem good_back {w : World} : ∀ {d : Decl} {t : Ty}, resolveType w false d = .ok t → typeText t = some d.go →
    d.complete = true → d.good w = true := by
  intro d
  induction d with
  | nil => intro t h; cases h
  | unset => intro t h; cases h
  | unknown => intro t h; cases h
  | kind k => intro t _ _ _; rfl
  | msg n => intro t h hg _; simp [Decl.good, Decl.complete, Decl.flat, leaf_back (d := .msg n) rfl h hg]
  | enum n => intro t h hg _; simp [Decl.good, Decl.complete, Decl.flat, leaf_back (d := .enum n) rfl h hg]
  | rep u _ =>
    intro t h hg hc
    simp only [resolveType] at h
    simp only [Decl.go] at hg
    have hs := text_slice hg
    have hl : u.leaf = true := by
      cases u with
      | rep v => exact absurd rfl (hs.1 v.go)
      | map k v => exact absurd rfl (hs.2 k.go v.go)
      | nil => cases h
      | unset => cases h
      | unknown => cases h
      | kind k => rfl
      | msg n => rfl
      | enum n => rfl
    have hd := leaf_back hl h hg
    simp only [Decl.complete] at hc
    simp [Decl.good, Decl.complete, Decl.flat, Decl.declared, hc, hl, hd]
  | map k v ihk ihv =>
    intro t h hg hc
    simp only [resolveType] at h
    cases hk : resolveType w false k with
    | err => rw [hk] at h; cases h
    | panic => rw [hk] at h; cases h
    | ok tk =>
      cases hv : resolveType w false v with
      | err => rw [hk, hv] at h; cases h
      | panic => rw [hk, hv] at h; cases h
      | ok tv =>
        rw [hk, hv] at h
        cases h
        simp only [typeText, Decl.go] at hg
        split at hg
        · rename_i gk gv ek ev
          cases hg
          simp only [Decl.complete, Bool.and_eq_true] at hc
          have h1 := ihk hk ek hc.1
          have h2 := ihv hv ev hc.2
          simp only [Decl.good, Bool.and_eq_true] at h1 h2
          simp [Decl.good, Decl.complete, Decl.flat, Decl.declared, h1, h2]
        · cases hg

/-- A declared type becomes its Go type exactly if its lists are lists of base types, messages or enums, and its messages and
enums are declared. -/
theorem C99_type_partial (w : World) (d : Decl) (hc : d.complete = true) :
    (∃ t, resolveType w false d = .ok t ∧ typeText t = some d.go) ↔ d.flat = true ∧ d.declared w = true := by
  constructor
  · rintro ⟨t, h, hg⟩
    have := good_back h hg hc
    simp only [Decl.good, Bool.and_eq_true] at this
    exact ⟨this.1.2, this.2⟩
  · rintro ⟨h1, h2⟩
    exact good_type (by simp [Decl.good, hc, h1, h2])

/-! ### Functions -/

theorem argConv_good {w : World} {d : Decl} {t : Ty} (hgood : d.good w = true) (h : resolveType w false d = .ok t) :
    (argConv t).isSome = true ∧ ((argConv t).bind Conv.type = typeText t ↔ d.isMap = false) := by
  simp only [Decl.good, Bool.and_eq_true] at hgood
  have leaf : ∀ (r : Bool) (d : Decl) (t : Ty), d.leaf = true → d.declared w = true → resolveType w r d = .ok t →
      (argConv t).isSome = true ∧ (argConv t).bind Conv.type = typeText t := by
    intro r d t hl hd h
    cases d with
    | kind k => cases h; cases k <;> cases r <;> exact ⟨rfl, rfl⟩
    | msg n =>
      simp only [Decl.declared, Bool.and_eq_true, Bool.not_eq_true'] at hd
      simp only [resolveType, World.msg, hd.1, hd.2] at h
      cases h
      cases r <;> exact ⟨rfl, rfl⟩
    | enum n =>
      simp only [Decl.declared, Bool.and_eq_true, Bool.not_eq_true'] at hd
      simp only [resolveType, World.enum, hd.1, hd.2] at h
      cases h
      cases r <;> exact ⟨rfl, rfl⟩
    | nil => cases hl
    | unset => cases hl
    | unknown => cases hl
    | rep t => cases hl
    | map k v => cases hl
  cases d with
  | kind k => have := leaf false (.kind k) t rfl hgood.2 h; exact ⟨this.1, by simp [this.2, Decl.isMap]⟩
  | msg n => have := leaf false (.msg n) t rfl hgood.2 h; exact ⟨this.1, by simp [this.2, Decl.isMap]⟩
  | enum n => have := leaf false (.enum n) t rfl hgood.2 h; exact ⟨this.1, by simp [this.2, Decl.isMap]⟩
  | rep u => have := leaf true u t hgood.1.2 hgood.2 h; exact ⟨this.1, by simp [this.2, Decl.isMap]⟩
  | nil => cases h
  | unset => cases h
  | unknown => cases h
  | map k v =>
    obtain ⟨t', h', hg⟩ := good_type (w := w) (d := .map k v) (by simp [Decl.good, hgood])
    rw [h] at h'
    cases h'
    simp only [resolveType] at h
    split at h
    · split at h
      · rename_i tk _ tv _
        cases h
        simp only [argConv, hg, Decl.go]
        refine ⟨rfl, ?_⟩
        simp [Conv.type, Go.isMessage, Decl.isMap]
      · cases h
      · cases h
    · cases h
    · cases h

theorem retConv_good {w : World} {d : Decl} {t : Ty} (hgood : d.good w = true) (h : resolveType w false d = .ok t) :
    (retConv (some t)).isSome = true ∧
      ((retConv (some t)).bind Conv.type = typeText t ↔ d.isMap = false ∧ d.isEnum = false) := by
  have ha := argConv_good hgood h
  simp only [Decl.good, Bool.and_eq_true] at hgood
  have hsame : d.isEnum = false → retConv (some t) = argConv t := by
    intro he
    have key : ∀ (r : Bool) (d : Decl) (t : Ty), (∀ n, d ≠ .enum n) → d.leaf = true → resolveType w r d = .ok t →
        retConv (some t) = argConv t := by
      intro r d t hn hl h
      cases d with
      | kind k => cases h; cases k <;> rfl
      | msg n =>
        simp only [resolveType, World.msg] at h
        split at h
        · cases h
        · split at h <;> · cases h; rfl
      | enum n => exact absurd rfl (hn n)
      | nil => cases hl
      | unset => cases hl
      | unknown => cases hl
      | rep t => cases hl
      | map k v => cases hl
    cases d with
    | kind k => exact key false _ _ (fun _ => by simp) rfl h
    | msg n => exact key false _ _ (fun _ => by simp) rfl h
    | enum n => cases he
    | rep u => exact key true u _ (fun n hn => by rw [hn] at he; cases he) hgood.1.2 h
    | map k v =>
      simp only [resolveType] at h
      split at h
      · split at h
        · cases h; rfl
        · cases h
        · cases h
      · cases h
      · cases h
    | nil => cases h
    | unset => cases h
    | unknown => cases h
  cases he : d.isEnum with
  | false =>
    rw [hsame he]
    refine ⟨ha.1, ?_⟩
    rw [ha.2]
    simp
  | true =>
    have hen : ∃ n r, t = .enum (some n) r := by
      cases d with
      | enum n =>
        have hd := hgood.2
        simp only [Decl.declared, Bool.and_eq_true, Bool.not_eq_true'] at hd
        simp only [resolveType, World.enum, hd.1, hd.2] at h
        cases h
        exact ⟨n, false, rfl⟩
      | rep u =>
        cases u with
        | enum n =>
          have hd := hgood.2
          simp only [Decl.declared, Bool.and_eq_true, Bool.not_eq_true'] at hd
          simp only [resolveType, World.enum, hd.1, hd.2] at h
          cases h
          exact ⟨n, true, rfl⟩
        | _ => cases he
      | _ => cases he
    obtain ⟨n, r, rfl⟩ := hen
    refine ⟨rfl, ?_⟩
    cases r <;> simp [retConv, Conv.type, typeText, sliceIf]

/-- All arguments are resolved, each to its own type. -/
theorem resolveArgs_good {w : World} : ∀ {ds : List Decl}, (∀ d ∈ ds, d.good w = true) →
    ∃ ts, resolveArgs w ds = .ok (ts, 0) ∧ ts.mapM typeText = some (ds.map Decl.go) ∧
      (ts.all (fun t => (argConv t).isSome)) = true ∧
      (ts.all (fun t => decide ((argConv t).bind Conv.type = typeText t)) = ds.all fun d => !d.isMap)
  | [], _ => ⟨[], rfl, rfl, rfl, rfl⟩
  | d :: ds, h => by
    obtain ⟨ts, h1, h2, h3, h4⟩ := resolveArgs_good (ds := ds) fun d hd => h d (List.mem_cons_of_mem _ hd)
    obtain ⟨t, h5, h6⟩ := good_type (h d (List.mem_cons_self ..))
    obtain ⟨h7, h8⟩ := argConv_good (h d (List.mem_cons_self ..)) h5
    refine ⟨t :: ts, ?_, ?_, ?_, ?_⟩
    · simp only [resolveArgs, h5, h1]
    · simp [List.mapM_cons, h6, h2]
    · simp only [List.all_cons, h7, h3, Bool.and_self]
    · simp only [List.all_cons, h4]
      congr 1
      cases hm : d.isMap with
      | false => simpa using h8.2 hm
      | true =>
        have : ¬ ((argConv t).bind Conv.type = typeText t) := fun e => by rw [h8.1 e] at hm; cases hm
        simpa using this

/-- A function with complete, flat, declared types has the method of its declared types in the interface, after the
receiver; its handler is written, and it compiles exactly if no argument is a map and the result neither a map nor an
enum. -/
theorem C99_function_partial (w : World) (f : FnDecl) (hargs : ∀ d ∈ f.args, d.good w = true) (hret : f.ret.good w = true)
    (hrecv : ∀ n, f.receiver = some n → w.msgs n = true) :
    ∃ fn, resolveFn w f = .ok (fn, 0) ∧
      signature fn = some ((f.receiver.toList.map Go.ptr) ++ f.args.map Decl.go, f.ret.go) ∧ generates fn = true ∧
      (compiles fn = true ↔ (∀ d ∈ f.args, d.isMap = false) ∧ f.ret.isMap = false ∧ f.ret.isEnum = false) := by
  obtain ⟨ts, h1, h2, h3, h4⟩ := resolveArgs_good hargs
  obtain ⟨t, h5, h6⟩ := good_type hret
  obtain ⟨h7, h8⟩ := retConv_good hret h5
  have hnil : f.ret ≠ .nil := by
    intro e
    rw [e] at hret
    simp [Decl.good, Decl.complete] at hret
  have hr : resolveRet w f.ret = .ok (some t, 0) := by
    unfold resolveRet
    rw [if_neg hnil, h5]
  let rs : List Ty := f.receiver.toList.map fun n => .msg (some n) false
  have hrv : resolveReceiver w f.receiver = .ok (rs, 0) := by
    cases he : f.receiver with
    | none => simp [resolveReceiver, rs, he]
    | some n => simp [resolveReceiver, rs, he, hrecv n he]
  have hrs1 : rs.mapM typeText = some (f.receiver.toList.map Go.ptr) := by
    cases he : f.receiver with
    | none => simp [rs, he]
    | some n => simp [rs, he, List.mapM_cons, typeText, sliceIf]
  have hrs2 : rs.all (fun t => (argConv t).isSome) = true := by
    cases he : f.receiver with
    | none => simp [rs, he]
    | some n => simp [rs, he, argConv, typeText]
  have hrs3 : rs.all (fun t => decide ((argConv t).bind Conv.type = typeText t)) = true := by
    cases he : f.receiver with
    | none => simp [rs, he]
    | some n => simp [rs, he, argConv, typeText, Conv.type, Go.isMessage, sliceIf]
  have hsig : signature ⟨f.name, f.receiver, rs ++ ts, some t⟩ =
      some ((f.receiver.toList.map Go.ptr) ++ f.args.map Decl.go, f.ret.go) := by
    unfold signature
    simp only [List.mapM_append, hrs1, h2, retText, h6]
    rfl
  have hgen : generates ⟨f.name, f.receiver, rs ++ ts, some t⟩ = true := by
    unfold generates
    rw [hsig]
    simp only [List.all_append, hrs2, h3, h7, Option.isSome_some, Bool.and_self]
  refine ⟨⟨f.name, f.receiver, rs ++ ts, some t⟩, ?_, hsig, hgen, ?_⟩
  · unfold resolveFn
    rw [hrv, h1, hr]
  · unfold compiles
    rw [hgen]
    simp only [List.all_append, hrs3, h4, retText, Bool.true_and, Bool.and_eq_true, List.all_eq_true,
      Bool.not_eq_true', decide_eq_true_eq, h8]

theorem ok_complete {w : World} : ∀ {d : Decl} {r : Bool} {t : Ty}, resolveType w r d = .ok t → d.complete = true := by
  intro d
  induction d with
  | nil => intro r t h; cases h
  | unset => intro r t h; cases h
  | unknown => intro r t h; cases h
  | kind k => intro r t _; rfl
  | msg n => intro r t _; rfl
  | enum n => intro r t _; rfl
  | rep u ih => intro r t h; exact ih (r := true) h
  | map k v ihk ihv =>
    intro r t h
    simp only [resolveType] at h
    split at h
    · rename_i hk
      split at h
      · rename_i hv
        simp only [Decl.complete, ihk hk, ihv hv, Bool.and_self]
      · cases h
      · cases h
    · cases h
    · cases h

theorem args_complete {w : World} : ∀ {ds : List Decl} {ts : List Ty}, resolveArgs w ds = .ok (ts, 0) →
    ∀ d ∈ ds, d.complete = true
  | [], _, _, d, hd => by simp at hd
  | e :: ds, ts, h, d, hd => by
    simp only [resolveArgs] at h
    split at h
    · cases h
    · split at h <;> simp at h
    · rename_i t he
      split at h
      · rename_i ts' n' e'
        simp only [Res.ok.injEq, Prod.mk.injEq] at h
        obtain ⟨_, rfl⟩ := h
        rcases List.mem_cons.1 hd with rfl | hd
        · exact ok_complete he
        · exact args_complete e' d hd
      · cases h
      · cases h

/-- A type that is not complete is not accepted, neither as an argument nor as the result. -/
theorem C99_accepted (w : World) (f : FnDecl) (fn : Fn) (h : resolveFn w f = .ok (fn, 0)) :
    (∀ d ∈ f.args, d.complete = true) ∧ (f.ret = .nil ∨ f.ret.complete = true) := by
  unfold resolveFn at h
  cases h1 : resolveReceiver w f.receiver with
  | err => rw [h1] at h; cases h
  | panic => rw [h1] at h; cases h
  | ok p =>
    obtain ⟨rs, a⟩ := p
    cases h2 : resolveArgs w f.args with
    | err => rw [h1, h2] at h; cases h
    | panic => rw [h1, h2] at h; cases h
    | ok q =>
      obtain ⟨ts, b⟩ := q
      cases h3 : resolveRet w f.ret with
      | err => rw [h1, h2, h3] at h; cases h
      | panic => rw [h1, h2, h3] at h; cases h
      | ok r =>
        obtain ⟨rt, c⟩ := r
        rw [h1, h2, h3] at h
        simp only [Res.ok.injEq, Prod.mk.injEq] at h
        have hb : b = 0 := by omega
        have hc : c = 0 := by omega
        subst hb hc
        refine ⟨args_complete h2, ?_⟩
        unfold resolveRet at h3
        split at h3
        · left; assumption
        · right
          split at h3
          · rename_i he; exact ok_complete he
          · simp at h3
          · cases h3

/-- An accepted function has as many arguments as are declared. -/
theorem C99_arity (w : World) (f : FnDecl) (fn : Fn) (h : resolveFn w f = .ok (fn, 0)) :
    fn.args.length = f.receiver.toList.length + f.args.length := by
  have hlen : ∀ (ds : List Decl) (ts : List Ty) (n : Nat), resolveArgs w ds = .ok (ts, n) → ts.length + n = ds.length := by
    intro ds
    induction ds with
    | nil => intro ts n h; cases h; rfl
    | cons d ds ih =>
      intro ts n h
      simp only [resolveArgs] at h
      split at h
      · cases h
      · split at h
        · rename_i ts' n' e
          cases h
          have := ih _ _ e
          simp only [List.length_cons]
          omega
        · cases h
        · cases h
      · split at h
        · rename_i ts' n' e
          cases h
          have := ih _ _ e
          simp only [List.length_cons]
          omega
        · cases h
        · cases h
  unfold resolveFn at h
  cases h1 : resolveReceiver w f.receiver with
  | err => rw [h1] at h; cases h
  | panic => rw [h1] at h; cases h
  | ok p =>
    obtain ⟨rs, a⟩ := p
    cases h2 : resolveArgs w f.args with
    | err => rw [h1, h2] at h; cases h
    | panic => rw [h1, h2] at h; cases h
    | ok q =>
      obtain ⟨ts, b⟩ := q
      cases h3 : resolveRet w f.ret with
      | err => rw [h1, h2, h3] at h; cases h
      | panic => rw [h1, h2, h3] at h; cases h
      | ok r =>
        obtain ⟨rt, c⟩ := r
        rw [h1, h2, h3] at h
        simp only [Res.ok.injEq, Prod.mk.injEq] at h
        obtain ⟨rfl, h0⟩ := h
        have := hlen _ _ _ h2
        have hr : rs.length = f.receiver.toList.length := by
          unfold resolveReceiver at h1
          cases he : f.receiver with
          | none => rw [he] at h1; cases h1; rfl
          | some n =>
            rw [he] at h1
            simp only at h1
            split at h1
            · cases h1; rfl
            · split at h1 <;> cases h1
        simp only [List.length_append]
        omega

/-! ### Names -/

theorem digits_digit {n : Nat} {c : Char} (h : c ∈ digits n) : c.isDigit = true :=
  Nat.isDigit_of_mem_toDigits (by decide) (by decide) h

theorem digits_inj {a b : Nat} (h : digits a = digits b) : a = b := by
  have := congrArg (Nat.ofDigitChars 10 · 0) h
  simpa [digits, Nat.ofDigitChars_ten_toDigits] using this

/-- The name of a function does not end in a digit. -/
def plain (n : Name) : Bool :=
  match n.getLast? with
  | none => true
  | some c => !c.isDigit

theorem append_digits {a b x y : Name} (ha : plain a = true) (hb : plain b = true) (hx : ∀ c ∈ x, c.isDigit = true)
    (hy : ∀ c ∈ y, c.isDigit = true) (h : a ++ x = b ++ y) : a = b ∧ x = y := by
  rw [List.append_eq_append_iff] at h
  rcases h with ⟨m, hm1, hm2⟩ | ⟨m, hm1, hm2⟩
  · cases m.eq_nil_or_concat with
    | inl e => subst e; simp_all
    | inr e =>
      obtain ⟨m', c, rfl⟩ := e
      have hc : c.isDigit = true := hx c (by rw [hm2]; simp)
      subst hm1
      have hlast : (a ++ (m'.concat c)).getLast? = some c := by
        rw [List.concat_eq_append, ← List.append_assoc]
        exact List.getLast?_concat
      unfold plain at hb
      rw [hlast] at hb
      simp [hc] at hb
  · cases m.eq_nil_or_concat with
    | inl e => subst e; simp_all
    | inr e =>
      obtain ⟨m', c, rfl⟩ := e
      have hc : c.isDigit = true := hy c (by rw [hm2]; simp)
      subst hm1
      have hlast : (b ++ (m'.concat c)).getLast? = some c := by
        rw [List.concat_eq_append, ← List.append_assoc]
        exact List.getLast?_concat
      unfold plain at ha
      rw [hlast] at ha
      simp [hc] at ha

theorem funcName_inj {p q : Name × Nat} (hp : plain p.1 = true) (hq : plain q.1 = true) (h : funcName p = funcName q) :
    p = q := by
  obtain ⟨a, i⟩ := p
  obtain ⟨b, j⟩ := q
  have form : ∀ (n : Name) (k : Nat), funcName (n, k) = n ++ (if k ≠ 0 then digits (k + 1) else []) := by
    intro n k
    unfold funcName
    split <;> simp_all
  have dig : ∀ (k : Nat), ∀ c ∈ (if k ≠ 0 then digits (k + 1) else []), c.isDigit = true := by
    intro k c hc
    split at hc
    · exact digits_digit hc
    · simp at hc
  rw [form, form] at h
  obtain ⟨rfl, h2⟩ := append_digits hp hq (dig i) (dig j) h
  have hne : ∀ k : Nat, digits k ≠ [] := fun k => Nat.toDigits_ne_nil
  by_cases hi : i = 0
  · by_cases hj : j = 0
    · rw [hi, hj]
    · rw [if_neg (by simpa using hi), if_pos hj] at h2
      exact absurd h2.symm (hne _)
  · by_cases hj : j = 0
    · rw [if_pos hi, if_neg (by simpa using hj)] at h2
      exact absurd h2 (hne _)
    · rw [if_pos hi, if_pos hj] at h2
      have := digits_inj h2
      have : i = j := by omega
      rw [this]

theorem overloads_ge {ns seen : List Name} {p : Name × Nat} (h : p ∈ overloads seen ns) :
    p.1 ∈ ns ∧ (seen.filter (· == p.1)).length ≤ p.2 := by
  induction ns generalizing seen with
  | nil => simp [overloads] at h
  | cons n ns ih =>
    simp only [overloads, List.mem_cons] at h
    rcases h with rfl | h
    · exact ⟨by simp, Nat.le_refl _⟩
    · have := ih h
      refine ⟨List.mem_cons_of_mem _ this.1, Nat.le_trans ?_ this.2⟩
      rw [List.filter_cons]
      split <;> simp

theorem overloads_nodup (ns seen : List Name) : (overloads seen ns).Nodup := by
  induction ns generalizing seen with
  | nil => simp [overloads]
  | cons n ns ih =>
    simp only [overloads, List.nodup_cons]
    refine ⟨fun h => ?_, ih _⟩
    have := (overloads_ge h).2
    simp only [List.filter_cons, beq_self_eq_true, if_true, List.length_cons] at this
    omega

theorem map_nodup {α β : Type} {f : α → β} {l : List α} (hi : ∀ a ∈ l, ∀ b ∈ l, f a = f b → a = b) (h : l.Nodup) :
    (l.map f).Nodup := by
  induction l with
  | nil => simp
  | cons a l ih =>
    rw [List.nodup_cons] at h
    rw [List.map_cons, List.nodup_cons]
    refine ⟨fun hm => ?_, ih (fun x hx y hy => hi x (List.mem_cons_of_mem _ hx) y (List.mem_cons_of_mem _ hy)) h.2⟩
    obtain ⟨b, hb, e⟩ := List.mem_map.1 hm
    rw [hi b (List.mem_cons_of_mem _ hb) a (List.mem_cons_self ..) e] at hb
    exact h.1 hb

/-- The functions of a plugin have names of their own in the interface, overloads included, if no name ends in a digit
(partial: before the names are written in Go style, C64; a receiver is not part of the name here). -/
theorem C99_names_partial (names : List Name) (h : ∀ n ∈ names, plain n = true) :
    ((overloads [] names).map funcName).Nodup ∧ (overloads [] names).map (·.1) = names := by
  refine ⟨map_nodup (fun p hp q hq e => funcName_inj (h _ (overloads_ge hp).1) (h _ (overloads_ge hq).1) e)
    (overloads_nodup names []), ?_⟩
  have : ∀ (ns seen : List Name), (overloads seen ns).map (·.1) = ns := by
    intro ns
    induction ns with
    | nil => intro seen; rfl
    | cons n ns ih => intro seen; simp [overloads, ih]
  exact this names []

/-! ### What the code gets wrong -/

def nothing : World := ⟨fun _ => false, fun _ => false, fun _ => false⟩
def str : Decl := .kind .string

/-- A list of lists becomes a list, a list of maps becomes a map, and no error is reported. -/
theorem C99_nested_false :
    ∃ d e : Decl, d.complete = true ∧ e.complete = true ∧
      (∃ t, resolveType nothing false d = .ok t ∧ d.go = .slice (.slice (.base .string)) ∧
        typeText t = some (.slice (.base .string))) ∧
      ∃ t, resolveType nothing false e = .ok t ∧ e.go = .slice (.map (.base .string) (.base .int64)) ∧
        typeText t = some (.map (.base .string) (.base .int64)) :=
  ⟨.rep (.rep str), .rep (.map str (.kind .int64)), rfl, rfl, ⟨_, rfl, rfl, rfl⟩, ⟨_, rfl, rfl, rfl⟩⟩

/-- A message or an enum that is not declared is accepted as the type of an argument, and the generator crashes. -/
theorem C99_undeclared_false (w : World) (n : Name) (hm : w.msgs n = false) (he : w.enums n = false)
    (hp : w.noPkg n = false) :
    ∀ d ∈ [Decl.msg n, .enum n], ∃ fn, resolveFn w ⟨['f'], none, [d], str⟩ = .ok (fn, 0) ∧ signature fn = none ∧
      generates fn = false := by
  intro d hd
  simp only [List.mem_cons, List.not_mem_nil, or_false] at hd
  rcases hd with rfl | rfl
  · exact ⟨⟨['f'], none, [.msg none false], some (.kind .string false)⟩,
      by simp [resolveFn, resolveReceiver, resolveArgs, resolveType, World.msg, hm, hp, resolveRet, str], rfl, rfl⟩
  · exact ⟨⟨['f'], none, [.enum none false], some (.kind .string false)⟩,
      by simp [resolveFn, resolveReceiver, resolveArgs, resolveType, World.enum, he, hp, resolveRet, str], rfl, rfl⟩

/-- An argument without a type, or with a list or a map of nothing, is a crash. -/
theorem C99_missing_false (w : World) : ∀ d ∈ [Decl.nil, .rep .nil, .map .nil str, .map str .nil], ∀ as : List Decl,
    resolveFn w ⟨['f'], none, d :: as, str⟩ = .panic := by
  intro d hd as
  simp only [List.mem_cons, List.not_mem_nil, or_false] at hd
  rcases hd with rfl | rfl | rfl | rfl <;> rfl

/-- A function without a result is accepted, its method returns `any`, and the generator crashes. -/
theorem C99_no_return_false (w : World) (args : List Decl) (hargs : ∀ d ∈ args, d.good w = true) :
    ∃ fn, resolveFn w ⟨['f'], none, args, .nil⟩ = .ok (fn, 0) ∧ signature fn = some (args.map Decl.go, .any) ∧
      generates fn = false := by
  obtain ⟨ts, h1, h2, h3, _⟩ := resolveArgs_good hargs
  refine ⟨⟨['f'], none, ts, none⟩, ?_, ?_, ?_⟩
  · simp [resolveFn, resolveReceiver, h1, resolveRet]
  · simp [signature, h2, retText]
  · simp [generates, retConv]

/-- Maps as arguments, and maps and enums as results, are accepted, but the handler does not compile. -/
theorem C99_map_enum_false : ∃ (w : World) (n : Name), ∀ f ∈ [FnDecl.mk ['f'] none [.map str str] str,
    ⟨['f'], none, [str], .map str str⟩, ⟨['f'], none, [str], .enum n⟩, ⟨['f'], none, [str], .rep (.enum n)⟩],
    ∃ fn, resolveFn w f = .ok (fn, 0) ∧ generates fn = true ∧ compiles fn = false := by
  refine ⟨⟨fun _ => true, fun _ => true, fun _ => false⟩, ['E'], ?_⟩
  intro f hf
  simp only [List.mem_cons, List.not_mem_nil, or_false] at hf
  rcases hf with rfl | rfl | rfl | rfl
  · exact ⟨⟨['f'], none, [.map (.kind .string false) (.kind .string false)], some (.kind .string false)⟩, by decide⟩
  · exact ⟨⟨['f'], none, [.kind .string false], some (.map (.kind .string false) (.kind .string false))⟩, by decide⟩
  · exact ⟨⟨['f'], none, [.kind .string false], some (.enum (some ['E']) false)⟩, by decide⟩
  · exact ⟨⟨['f'], none, [.kind .string false], some (.enum (some ['E']) true)⟩, by decide⟩

/-- The second overload of `foo` has the name of the function `foo2`. -/
theorem C99_names_false : ∃ names : List Name, ¬ ((overloads [] names).map goName).Nodup ∧ names.eraseDups.length = 2 :=
  ⟨[['p', '.', 'f', 'o', 'o'], ['p', '.', 'f', 'o', 'o'], ['p', '.', 'f', 'o', 'o', '2']], by decide +kernel, by decide⟩

/-- The hypotheses are met: a method with a list and a message, returning a list of durations. -/
example :
    let w : World := ⟨fun n => n == ['M'] || n == ['N'], fun n => n == ['E'], fun _ => false⟩
    let f : FnDecl := ⟨['f'], some ['M'], [.rep (.enum ['E']), .msg ['N']], .rep (.kind .duration)⟩
    (∀ d ∈ f.args, d.good w = true) ∧ f.ret.good w = true ∧
      ∃ fn, resolveFn w f = .ok (fn, 0) ∧ compiles fn = true ∧
        signature fn = some ([.ptr ['M'], .slice (.enum ['E']), .ptr ['N']], .slice (.base .duration)) := by
  refine ⟨by decide, by decide, ⟨['f'], some ['M'], [.msg (some ['M']) false, .enum (some ['E']) true,
    .msg (some ['N']) false], some (.kind .duration true)⟩, by decide⟩

example : (overloads [] [['f'], ['g'], ['f'], ['f']]).map funcName = [['f'], ['g'], ['f', '2'], ['f', '3']] := by
  decide +kernel

end Verif.PlugTy
