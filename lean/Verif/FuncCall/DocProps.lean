import Verif.FuncCall.Props
import Verif.FuncCall.Docs

/-! # C79: the documented functions and methods can be called -/

namespace Verif.FuncCall

/-- The expression `grpc.federation.lib`. -/
def libExpr (lib : String) : Expr := .select (.select (.ident "grpc") "federation") lib

theorem lookup_self {ds : List Decl} {c q : QName} (hd : ∃ d ∈ ds, d.name = q) (hu : ∀ d ∈ ds, q <:+ d.name → d.name = q) :
    lookup ds c q = some q := by
  cases h : lookup ds c q with
  | some n =>
    obtain ⟨⟨d, h1, h2⟩, p, -, he⟩ := lookup_some h
    rw [← h2, hu d h1 ⟨p, by rw [h2, he]⟩]
  | none =>
    exfalso
    obtain ⟨d, h1, h2⟩ := hd
    unfold lookup candidates at h
    rw [List.find?_eq_none] at h
    refine h q (List.mem_map.2 ⟨0, by simp, by simp⟩) ?_
    rw [List.any_eq_true]
    exact ⟨d, h1, by simp [h2]⟩

theorem doc_functions_std : ∀ x ∈ docFunctions, ∃ d ∈ std, d.name = ["grpc", "federation", x.1, x.2] ∧ d.method = false ∧
    d.bound = true := by decide +kernel

theorem std_length : ∀ d ∈ std, d.name.length = 4 ∨ d.name.length = 1 := by decide +kernel

/-- **C79.** Every documented function is called by its whole name, with the context, from every package and next to any plugins
`ps` none of whose functions end in the whole name. -/
theorem C79_documented_functions (lib f : String) (h : (lib, f) ∈ docFunctions) (ds : List Decl)
    (hds : ∀ d ∈ ds, ¬ ["grpc", "federation", lib, f] <:+ d.name) (c : QName) (args : List Expr) :
    compile (std ++ ds) c (.member (libExpr lib) f args) =
      (calleesList (std ++ ds) c (withCtx (expandList (std ++ ds) args))).map fun ks =>
        ⟨["grpc", "federation", lib, f], false⟩ :: ks := by
  obtain ⟨d, hd, hn, hm, hb⟩ := doc_functions_std _ h
  refine C79_functions _ c _ ["grpc", "federation", lib] _ f args rfl ?_ ⟨d, List.mem_append_left _ hd, hn, hm, hb⟩
  refine lookup_self ⟨d, List.mem_append_left _ hd, hn⟩ ?_
  intro e he hs
  rcases List.mem_append.1 he with he | he
  · have hl : 4 ≤ e.name.length := hs.length_le
    rcases std_length e he with h4 | h1
    · exact (hs.eq_of_length (by rw [h4]; rfl)).symm
    · omega
  · exact absurd hs (hds e he)

theorem doc_methods_std : ∀ x ∈ docMethods, ∃ d ∈ std, d.name = [x.2] ∧ d.method = true ∧ d.bound = true := by
  decide +kernel

theorem std_head : ∀ d ∈ std, d.method = false → d.name.head? = some "grpc" := by decide +kernel

theorem std_methods_short : ∀ d ∈ std, d.method = true → d.name.length = 1 := by decide +kernel

/-- **C79** (partial: all but `Time.add` and `URL.parse`, which `C79_std_false` is about). Every documented method is called on every
value that is no name of a package of the libraries, from every package that is not one of theirs. -/
theorem C79_documented_methods_partial (ty f : String) (h : (ty, f) ∈ docMethods) (h1 : f ≠ "add") (h2 : f ≠ "parse")
    (c : QName) (hc : c.head? ≠ some "grpc") (t : Expr) (ht : (selectorName t).head? ≠ some "grpc") (args : List Expr)
    (hargs : ∃ as, calleesList std c (withCtx (expandList std args)) = some as) (hrec : ∃ ts, callees std c (expand std t) = some ts) :
    ∃ ks, compile std c (.member t f args) = some (⟨[f], true⟩ :: ks) := by
  obtain ⟨d, hd, hn, hm, hb⟩ := doc_methods_std _ h
  have hshort : d.short = f := short_of_name (p := []) hn
  have hlook : ∀ q : QName, q.head? ≠ some "grpc" → q ≠ [] → ∀ n, lookup std c (q ++ [f]) = some n → False := by
    intro q hq hne n hl
    obtain ⟨⟨e, he, hen⟩, p, ⟨r, hp⟩, hpn⟩ := lookup_some hl
    have hlen : e.name.length ≠ 1 := by
      rw [hen, hpn]
      cases q with
      | nil => exact absurd rfl hne
      | cons a q => simp; omega
    have hmeth : e.method = false := by
      cases hme : e.method with
      | false => rfl
      | true => exact absurd (std_methods_short e he hme) hlen
    have hh := std_head e he hmeth
    rw [hen, hpn] at hh
    cases p with
    | nil =>
      cases q with
      | nil => exact absurd rfl hne
      | cons a q => exact hq hh
    | cons a p =>
      rw [← hp] at hc
      exact hc hh
  have hown : lookup std c [f] = some [f] := by
    cases hl : lookup std c [f] with
    | some n =>
      obtain ⟨⟨e, he, hen⟩, p, ⟨r, hp⟩, hpn⟩ := lookup_some hl
      cases p with
      | nil => rw [hpn]; rfl
      | cons a p =>
        exfalso
        have hmeth : e.method = false := by
          cases hme : e.method with
          | false => rfl
          | true =>
            have := std_methods_short e he hme
            rw [hen, hpn] at this
            simp at this
        have hh := std_head e he hmeth
        rw [hen, hpn] at hh
        rw [← hp] at hc
        exact hc hh
    | none =>
      exfalso
      unfold lookup candidates at hl
      rw [List.find?_eq_none] at hl
      refine hl [f] (List.mem_map.2 ⟨0, by simp, by simp⟩) ?_
      rw [List.any_eq_true]
      exact ⟨d, hd, by simp [hn]⟩
  refine (C79_methods_partial std c t f args hargs hrec ?_ hown ⟨d, hd, hn, hm, hb⟩ ?_).2 ?_
  · unfold namespaced?
    cases hq : qualified? t with
    | none => rfl
    | some q =>
      rw [Option.bind_some]
      cases hl : lookup std c (q ++ [f]) with
      | none => rfl
      | some n =>
        rw [selectorName_of_qualified hq] at ht
        exact (hlook q ht (qualified_ne_nil hq) n hl).elim
  · cases hs : selectorName t with
    | nil =>
      refine .inr ⟨rfl, fun e he hen => ?_⟩
      cases hme : e.method with
      | true => rfl
      | false =>
        have hh := std_head e he hme
        rw [hen] at hh
        rcases std_length e he with hl | hl
        · rw [hen] at hl; cases hl
        · have hf : f = "grpc" := by simpa using hh
          have : ∀ x ∈ docMethods, x.2 ≠ "grpc" := by decide +kernel
          exact absurd hf (this _ h)
    | cons a q =>
      left
      cases hl : lookup std c ((a :: q) ++ [f]) with
      | none => rfl
      | some n => exact (hlook (a :: q) (by rw [← hs]; exact ht) (by simp) n hl).elim
  · exact hshort ▸ C79_std_methods_partial d hd hb hm (hshort ▸ h1) (hshort ▸ h2)

/-- `u.host()` and `grpc.federation.time.now().year()`. -/
example : (∃ ks, compile std ["org"] (.member (.ident "u") "host" []) = some (⟨["host"], true⟩ :: ks)) ∧
    ∃ ks, compile std ["org"] (.member (.member (libExpr "time") "now" []) "year" []) = some (⟨["year"], true⟩ :: ks) :=
  ⟨C79_documented_methods_partial "URL" "host" (by decide +kernel) (by decide) (by decide) _ (by decide) _ (by decide) _
      ⟨[], by decide +kernel⟩ ⟨[], by decide +kernel⟩,
    C79_documented_methods_partial "Time" "year" (by decide +kernel) (by decide) (by decide) _ (by decide) _ (by decide) _
      ⟨[], by decide +kernel⟩ ⟨[⟨["grpc", "federation", "time", "now"], false⟩], by decide +kernel⟩⟩

end Verif.FuncCall
