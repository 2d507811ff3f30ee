import Verif.LocBuild.Lemmas

/-! # The methods, one by one -/

namespace Verif.LocBuild

/-- A change keeps the heap well-typed. -/
def EffOk (k : Kind) (a : Arg) : Effect → Prop
  | .set f => (f ∈ copied k ∨ lossy k f = true) ∧ kidKind k f = none
  | .put f k' flags => kidKind k f = some k' ∧ keepArg k' (given k a) = given k a ∧ ∀ g ∈ flags, g ∈ copied k'
  | .enter f k' => kidKind k f = some k' ∧ keepArg k' (given k a) = given k a
  | .capture f k' => kidKind k f = some k' ∧ keepArg k' (given k a) = given k a

def isEnv (k : Kind) : Bool := k = .envVar ∨ k = .envVarOption

/-- A method does what it is named after. -/
def NameOk (k : Kind) (c : Call) : Effect → Prop
  | .set f => parts k c.meth = [f] ∧ argOf k c = c.arg ∧ k ≠ .message
  | .put f _ flags => k ≠ .message ∧ ((flags = [] ∧ parts k c.meth = [f] ∧ argOf k c = given k c.arg) ∨
      ∃ g, flags = [g] ∧ parts k c.meth = [f, g] ∧ argOf k c = .none ∧ given k c.arg = .none)
  | .enter f k' => parts k c.meth = [f] ∧ argOf k c = given k c.arg ∧ (k' ≠ k ∨ k = .message) ∧ (isEnv k' = isEnv k)
  | .capture f k' => parts k c.meth = [f] ∧ argOf k c = given k c.arg ∧ k' = .envVar ∧ k = .env ∧ c.meth = .withVar

theorem methods_ok (k : Kind) : ∀ t ∈ methods k, ∀ a : Arg, a.sig = t.2.1 → EffOk k a t.2.2 ∧ NameOk k ⟨t.1, a⟩ t.2.2 := by
  cases k <;> simp only [methods, List.forall_mem_cons, List.not_mem_nil, false_implies, implies_true, and_true] <;>
    (refine_lift ?_; repeat' apply And.intro) <;> intro a ha <;> cases a <;>
    first
    | (simp [Arg.sig] at ha; done)
    | simp [EffOk, NameOk, copied, lossy, kidKind, parts, named, argOf, given, keepArg, isEnv]

theorem effect_ok {k : Kind} {c : Call} {e : Effect} (h : effect k c = some e) : EffOk k c.arg e ∧ NameOk k c e := by
  unfold effect at h
  cases hf : (methods k).find? (fun e => e.1 = c.meth ∧ e.2.1 = c.arg.sig) with
  | none => rw [hf] at h; cases h
  | some t =>
    rw [hf] at h
    simp only [Option.map_some, Option.some.injEq] at h
    subst h
    have hm := List.mem_of_find?_eq_some hf
    have hp := List.find?_some hf
    simp only [decide_eq_true_eq] at hp
    have := methods_ok k t hm c.arg hp.2.symm
    rw [hp.1] at this
    exact this

theorem lossy_flag {k : Kind} {f : Fld} (h : lossy k f = true) : kidKind k f = none ∧ f ∉ copied k := by
  unfold lossy at h
  split at h <;> first | (simp [kidKind, copied]; done) | cases h

theorem lossy_cases {k : Kind} {f : Fld} : lossy k f = true ↔ (k = .location ∧ f = .importName) ∨ (k = .request ∧ f = .if) ∨
    (k = .retry ∧ f = .if) ∨ (k = .grpcError ∧ f = .ignoreAndResponse) ∨ (k = .detail ∧ f = .by) := by
  constructor
  · intro h
    unfold lossy at h
    split at h <;> first | (simp; done) | cases h
  · rintro (⟨rfl, rfl⟩ | ⟨rfl, rfl⟩ | ⟨rfl, rfl⟩ | ⟨rfl, rfl⟩ | ⟨rfl, rfl⟩) <;> rfl

end Verif.LocBuild
