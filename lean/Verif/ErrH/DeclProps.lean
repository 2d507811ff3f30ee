import Verif.ErrH.Decl
import Verif.ErrH.Props

/-! # C122: codes and log levels in the options -/

namespace Verif.ErrH

variable {V X D R E : Type}

/-! ## Specification -/

/-- The level an option asks for: `ERROR` if there is none, or if it is `UNKNOWN`. -/
inductive Asks : Option PLevel → Level → Prop where
  | debug : Asks (some .debug) .debug
  | info : Asks (some .info) .info
  | warn : Asks (some .warn) .warn
  | error : Asks (some .error) .error
  | unknown : Asks (some .unknown) .error
  | none : Asks none .error

/-- The code is one of `google.rpc.Code`, or there is none. -/
def Decl.Ok (d : Decl V X D R) : Prop := ∀ n, d.code = some n → ∃ k, (n, k) ∈ rpcCodes

/-- The entry of the server is the declared one. -/
structure Same (d : Decl V X D R) (e : Entry V X D R) : Prop where
  level : Asks d.level e.level
  code : ∀ k, e.code = some k ↔ ∃ n, d.code = some n ∧ (n, k) ∈ rpcCodes
  defs : e.defs = d.rest.defs
  cond : e.cond = d.rest.cond
  ignore : e.ignore = d.rest.ignore
  ignoreAndResponse : e.ignoreAndResponse = d.rest.ignoreAndResponse
  message : e.message = d.rest.message
  details : e.details = d.rest.details

/-- A word of a name: upper case letters. -/
def Word (w : Text) : Prop := w ≠ [] ∧ ∀ c ∈ w, 'A' ≤ c ∧ c ≤ 'Z'

/-- Words joined with underscores. -/
def underscored : List Text → Text
  | [] => []
  | [w] => w
  | w :: ws => w ++ '_' :: underscored ws

/-! ## Codes -/

/-- C122: the constant the generated code uses for a code exists and is this code, for all codes there are. -/
theorem C122_code (n : Text) (k : Nat) (h : (n, k) ∈ rpcCodes) : genCode n = .ok k := by
  have : ∀ c ∈ rpcCodes, lookupConst goConsts (goCode c.1) = some c.2 := by decide +kernel
  rw [genCode, this (n, k) h]

theorem code_unique (n : Text) (k k' : Nat) (h : (n, k) ∈ rpcCodes) (h' : (n, k') ∈ rpcCodes) : k = k' := by
  have e := C122_code n k h
  rw [C122_code n k' h'] at e
  simp only [Except.ok.injEq] at e
  exact e.symm

/-- C122: the level in the generated code is the one the option asks for. -/
theorem C122_level (o : Option PLevel) (l : Level) : genLevel o = .ok l ↔ Asks o l := by
  have all : ∀ l, lookupConst slogConsts (levelText l) = some l := by intro l; cases l <;> decide +kernel
  have e : genLevel o = .ok (resolveLevel o) := by rw [genLevel, all]
  rw [e]
  simp only [Except.ok.injEq]
  constructor
  · rintro rfl
    rcases o with _ | ⟨_ | _ | _ | _ | _⟩ <;> constructor
  · intro h
    cases h <;> rfl

theorem level_total (o : Option PLevel) : ∃ l, genLevel o = .ok l ∧ Asks o l := by
  rcases o with _ | ⟨_ | _ | _ | _ | _⟩
  · exact ⟨_, (C122_level _ _).2 .none, .none⟩
  · exact ⟨_, (C122_level _ _).2 .unknown, .unknown⟩
  · exact ⟨_, (C122_level _ _).2 .debug, .debug⟩
  · exact ⟨_, (C122_level _ _).2 .info, .info⟩
  · exact ⟨_, (C122_level _ _).2 .warn, .warn⟩
  · exact ⟨_, (C122_level _ _).2 .error, .error⟩

theorem entry_total (d : Decl V X D R) (h : d.Ok) : ∃ e, genEntry d = .ok e ∧ Same d e := by
  obtain ⟨l, hl, ha⟩ := level_total d.level
  simp only [genEntry, hl]
  cases hc : d.code with
  | none => exact ⟨_, rfl, ha, by simp [hc], rfl, rfl, rfl, rfl, rfl, rfl⟩
  | some n =>
    obtain ⟨k, hk⟩ := h n hc
    simp only [C122_code n k hk]
    refine ⟨_, rfl, ha, ?_, rfl, rfl, rfl, rfl, rfl, rfl⟩
    intro k'
    simp only [hc, Option.some.injEq, exists_eq_left']
    exact ⟨fun e => e ▸ hk, fun hk' => code_unique n k k' hk hk'⟩

/-- C122: every call with declared errors has a server with the same entries in the same order, with their codes and levels. -/
theorem C122_entries (ds : List (Decl V X D R)) (h : ∀ d ∈ ds, d.Ok) :
    ∃ es, genEntries ds = .ok es ∧ es.length = ds.length ∧ ∀ (i : Nat) (d : Decl V X D R), ds[i]? = some d → ∃ e, es[i]? = some e ∧ Same d e := by
  induction ds with
  | nil => exact ⟨[], rfl, rfl, by simp⟩
  | cons d ds ih =>
    obtain ⟨e, he, hs⟩ := entry_total d (h d (by simp))
    obtain ⟨es, h1, h2, h3⟩ := ih (fun x hx => h x (by simp [hx]))
    refine ⟨e :: es, by simp [genEntries, he, h1], by simp [h2], ?_⟩
    intro i d' hd
    cases i with
    | zero => simp only [List.getElem?_cons_zero, Option.some.injEq] at hd; exact ⟨e, by simp, hd ▸ hs⟩
    | succ i => simp only [List.getElem?_cons_succ] at hd ⊢; exact h3 i d' hd

theorem genEntries_mem (ds : List (Decl V X D R)) (h : ∀ d ∈ ds, d.Ok) (es : List (Entry V X D R)) (he : genEntries ds = .ok es) (e : Entry V X D R)
    (hm : e ∈ es) : ∃ d ∈ ds, Same d e := by
  obtain ⟨es', h1, h2, h3⟩ := C122_entries ds h
  rw [h1] at he
  simp only [Except.ok.injEq] at he
  subst he
  obtain ⟨i, hi⟩ := List.getElem?_of_mem hm
  have hl : i < ds.length := by rw [← h2]; exact (List.getElem?_eq_some_iff.1 hi).1
  obtain ⟨e', he', hs⟩ := h3 i ds[i] (List.getElem?_eq_getElem hl)
  rw [hi] at he'
  simp only [Option.some.injEq] at he'
  exact ⟨ds[i], List.getElem_mem hl, he' ▸ hs⟩

/-- C122: a failing call whose first matching entry does not ignore it fails with the code that is declared for it, or with that of the
failure if there is none, and with the declared level. -/
theorem C122_call (ds : List (Decl V X D R)) (h : ∀ d ∈ ds, d.Ok) (es : List (Entry V X D R)) (he : genEntries ds = .ok es)
    (ty : Types D) (handler : Option (Err D E) → Option (Err D E)) (setError : Status D → V → V) (statusOf : E → Option (Status D))
    (err : E) (ret : Option R) (v v' : V) (e : Entry V X D R) (s : Status D)
    (hf : FirstMatch es (errorEnv setError (statusOf err) v) e v') (hi : ¬ Ignoring e) (hs : EntryStatus ty (statusOf err) e v' s) :
    ∃ d ∈ ds, Same d e ∧ (∀ n k, d.code = some n → (n, k) ∈ rpcCodes → s.code = k) ∧
      (∀ o, d.code = none → statusOf err = some o → s.code = o.code) ∧
      ∃ l, Asks d.level l ∧
        Delivered handler (if s.code = 0 then none else some (.status s)) l ret (handleCallError ty handler setError statusOf es err ret v) := by
  have hm : e ∈ es := by obtain ⟨pre, post, v₁, rfl, _⟩ := hf; simp
  obtain ⟨d, hd, hsame⟩ := genEntries_mem ds h es he e hm
  have hdel := C19_status (ty := ty) (handler := handler) (setError := setError) (statusOf := statusOf) (err := err) (ret := ret) (v := v) (es := es) e v' s hf hi hs
  obtain ⟨-, code, dets, hcode, -, -, hat⟩ := hs
  refine ⟨d, hd, hsame, ?_, ?_, e.level, hsame.level, hdel⟩
  · intro n k hn hk
    have := (hsame.code k).2 ⟨n, hn, hk⟩
    simp only [CodeIs, this] at hcode
    rw [hat.1, hcode]
  · intro o hn ho
    have : e.code = none := by
      cases hc : e.code with
      | none => rfl
      | some k => obtain ⟨n, hn', -⟩ := (hsame.code k).1 hc; rw [hn] at hn'; cases hn'
    simp only [CodeIs, this, ho] at hcode
    rw [hat.1, hcode]

/-- C122: a validation with a declared code has a server, and its error has this code and the declared level. -/
theorem C122_validation_partial (ty : Types D) (d : Decl V X D R) (n : Text) (k : Nat) (hn : d.code = some n) (hk : (n, k) ∈ rpcCodes) (v : V) :
    ∃ r, validationError ty d v = .ok r ∧
      ∀ s ol, r = some (.status s, ol) → s.code = k ∧ ∃ l, ol = some l ∧ Asks d.level l := by
  obtain ⟨l, hl, ha⟩ := level_total d.level
  refine ⟨_, by simp only [validationError, genValidation, hn, C122_code n k hk, hl]; rfl, ?_⟩
  intro s ol hr
  simp only [Option.map_eq_some_iff] at hr
  obtain ⟨e, he, heq⟩ := hr
  cases e with
  | eval x => simp at heq
  | status s' =>
    simp only [Prod.mk.injEq, VErr.status.injEq] at heq
    obtain ⟨rfl, rfl⟩ := heq
    refine ⟨?_, l, rfl, ha⟩
    by_cases hk0 : k = okCode
    · exfalso
      subst hk0
      simp only [runValidation, runValidation.verr, statusWithDetails] at he
      repeat' split at he
      all_goals simp_all
    · rcases C22_cases ty k hk0 d.rest v with ⟨v', h1, h2⟩ | ⟨v', s'', h1, h2, h3⟩ | ⟨x, hx⟩
      · rw [(C22_passes_iff ty k hk0 d.rest v).2 ⟨v', h1, h2⟩] at he; cases he
      · rw [C22_status ty k hk0 d.rest v v' s'' h1 h2 h3] at he
        simp only [Option.some.injEq, VErr.status.injEq] at he
        subst he
        obtain ⟨-, ds, -, hat⟩ := h3
        exact hat.1
      · rw [hx] at he; cases he

/-- C122 is false of the code for a validation without a code, which the options allow: the generator stops. -/
theorem C122_validation_false (ty : Types D) (d : Decl V X D R) (h : d.code = none) (v : V) : validationError ty d v = .error .generator := by
  simp [validationError, genValidation, h]

/-! ## Names of constants -/

theorem split_word (w : Text) (hw : ∀ c ∈ w, c ≠ '_') : splitUnder w = [w] := by
  induction w with
  | nil => rfl
  | cons c cs ih => rw [splitUnder, if_neg (hw c (by simp)), ih (fun x hx => hw x (by simp [hx]))]

theorem split_cons (w r : Text) (hw : ∀ c ∈ w, c ≠ '_') : splitUnder (w ++ '_' :: r) = w :: splitUnder r := by
  induction w with
  | nil => simp [splitUnder]
  | cons c cs ih => rw [List.cons_append, splitUnder, if_neg (hw c (by simp)), ih (fun x hx => hw x (by simp [hx]))]

theorem word_no_under (w : Text) (h : Word w) : ∀ c ∈ w, c ≠ '_' := by
  rintro c hc rfl
  exact absurd (h.2 _ hc).2 (by decide)

theorem split_underscored (ws : List Text) (h : ∀ w ∈ ws, Word w) (hn : ws ≠ []) : splitUnder (underscored ws) = ws := by
  induction ws with
  | nil => exact absurd rfl hn
  | cons w ws ih =>
    cases ws with
    | nil => exact split_word w (word_no_under w (h w (by simp)))
    | cons w' ws =>
      rw [underscored, split_cons w _ (word_no_under w (h w (by simp))), ih (fun x hx => h x (by simp [hx])) (by simp)]
      simp

def Upper (c : Char) : Prop := 'A' ≤ c ∧ c ≤ 'Z'
def Lower (c : Char) : Prop := 'a' ≤ c ∧ c ≤ 'z'

theorem upper_nat (c : Char) : Upper c ↔ 65 ≤ c.toNat ∧ c.toNat ≤ 90 := Iff.rfl
theorem lower_nat (c : Char) : Lower c ↔ 97 ≤ c.toNat ∧ c.toNat ≤ 122 := Iff.rfl

theorem lowerC_nat (c : Char) (h : Upper c) : (lowerC c).toNat = c.toNat + 32 := by
  have h' := (upper_nat c).1 h
  rw [lowerC, if_pos (show _ ∧ _ from h), Char.ofNat, dif_pos (show (c.toNat + 32).isValidChar from Or.inl (by omega))]
  rfl

theorem lowerC_lower (c : Char) (h : Upper c) : Lower (lowerC c) := by
  have h' := (upper_nat c).1 h
  rw [lower_nat, lowerC_nat c h]; omega

theorem upperC_upper (c : Char) (h : Upper c) : upperC c = c := by
  have h' := (upper_nat c).1 h
  rw [upperC, if_neg]
  intro hl
  have := (lower_nat c).1 hl
  omega

theorem map_lower_inj (a b : Text) (ha : ∀ c ∈ a, Upper c) (hb : ∀ c ∈ b, Upper c) (h : a.map lowerC = b.map lowerC) : a = b := by
  induction a generalizing b with
  | nil => cases b with
    | nil => rfl
    | cons => simp at h
  | cons x xs ih =>
    cases b with
    | nil => simp at h
    | cons y ys =>
      simp only [List.map_cons, List.cons.injEq] at h
      have hn : (lowerC x).toNat = (lowerC y).toNat := by rw [h.1]
      rw [lowerC_nat x (ha x (by simp)), lowerC_nat y (hb y (by simp))] at hn
      rw [Char.toNat_inj.1 (by omega : x.toNat = y.toNat), ih ys (fun c hc => ha c (by simp [hc])) (fun c hc => hb c (by simp [hc])) h.2]

/-- A run of lower case letters ends where an upper case letter begins. -/
theorem run_inj (a b x y : Text) (ha : ∀ c ∈ a, Lower c) (hb : ∀ c ∈ b, Lower c) (hx : ∀ c ∈ x.head?, Upper c) (hy : ∀ c ∈ y.head?, Upper c)
    (h : a ++ x = b ++ y) : a = b ∧ x = y := by
  have no : ∀ c, Upper c → Lower c → False := by
    intro c h1 h2
    have := (upper_nat c).1 h1
    have := (lower_nat c).1 h2
    omega
  induction a generalizing b with
  | nil =>
    cases b with
    | nil => exact ⟨rfl, h⟩
    | cons c cs =>
      simp only [List.nil_append, List.cons_append] at h
      exact (no c (hx c (by simp [h])) (hb c (by simp))).elim
  | cons c cs ih =>
    cases b with
    | nil =>
      simp only [List.nil_append, List.cons_append] at h
      exact (no c (hy c (by simp [← h])) (ha c (by simp))).elim
    | cons d ds =>
      simp only [List.cons_append, List.cons.injEq] at h
      obtain ⟨e1, e2⟩ := ih ds (fun x hx => ha x (by simp [hx])) (fun x hx => hb x (by simp [hx])) h.2
      exact ⟨by rw [h.1, e1], e2⟩

theorem title_head (ws : List Text) (h : ∀ w ∈ ws, Word w) : ∀ c ∈ ((ws.map title).flatten).head?, Upper c := by
  cases ws with
  | nil => simp
  | cons w ws =>
    have hw := h w (by simp)
    obtain ⟨c, cs, rfl⟩ := List.exists_cons_of_ne_nil hw.1
    have hc : Upper c := hw.2 c (by simp)
    intro d hd
    simp only [List.map_cons, List.flatten_cons, title, List.cons_append, List.head?_cons, Option.mem_def, Option.some.injEq] at hd
    rw [← hd, upperC_upper c hc]
    exact hc

theorem titles_inj (a b : List Text) (ha : ∀ w ∈ a, Word w) (hb : ∀ w ∈ b, Word w) (h : (a.map title).flatten = (b.map title).flatten) : a = b := by
  induction a generalizing b with
  | nil =>
    cases b with
    | nil => rfl
    | cons w ws => obtain ⟨c, cs, rfl⟩ := List.exists_cons_of_ne_nil (hb w (by simp)).1; simp [title] at h
  | cons w ws ih =>
    have hw := ha w (by simp)
    obtain ⟨c, cs, rfl⟩ := List.exists_cons_of_ne_nil hw.1
    cases b with
    | nil => simp [title] at h
    | cons w' ws' =>
      have hw' := hb w' (by simp)
      obtain ⟨c', cs', rfl⟩ := List.exists_cons_of_ne_nil hw'.1
      simp only [List.map_cons, List.flatten_cons, title, List.cons_append, List.cons.injEq] at h
      obtain ⟨h1, h2⟩ := h
      rw [upperC_upper c (hw.2 c (by simp)), upperC_upper c' (hw'.2 c' (by simp))] at h1
      have hl : ∀ (l : Text), (∀ x ∈ l, Upper x) → ∀ x ∈ l.map lowerC, Lower x := by
        intro l hl x hx
        obtain ⟨y, hy, rfl⟩ := List.mem_map.1 hx
        exact lowerC_lower y (hl y hy)
      have u : ∀ x ∈ cs, Upper x := fun x hx => hw.2 x (by simp [hx])
      have u' : ∀ x ∈ cs', Upper x := fun x hx => hw'.2 x (by simp [hx])
      obtain ⟨e1, e2⟩ := run_inj _ _ _ _ (hl cs u) (hl cs' u') (title_head ws (fun x hx => ha x (by simp [hx])))
        (title_head ws' (fun x hx => hb x (by simp [hx]))) h2
      rw [h1, map_lower_inj cs cs' u u' e1, ih ws' (fun x hx => ha x (by simp [hx])) (fun x hx => hb x (by simp [hx])) e2]

/-- C122: different names of codes, of any number of words, have different constants. -/
theorem C122_names (a b : List Text) (ha : ∀ w ∈ a, Word w) (hb : ∀ w ∈ b, Word w) (h1 : a ≠ []) (h2 : b ≠ [])
    (hoa : underscored a ≠ "OK".toList) (hob : underscored b ≠ "OK".toList) : goCode (underscored a) = goCode (underscored b) ↔ a = b := by
  constructor
  · intro h
    rw [goCode, goCode, if_neg hoa, if_neg hob, split_underscored a ha h1, split_underscored b hb h2] at h
    exact titles_inj a b ha hb (List.append_cancel_right h)
  · rintro rfl; rfl

/-- The names of codes are such names. -/
example : underscored ["INVALID".toList, "ARGUMENT".toList] = "INVALID_ARGUMENT".toList ∧
    (∀ w ∈ ["INVALID".toList, "ARGUMENT".toList], Word w) ∧ goCode "INVALID_ARGUMENT".toList = "InvalidArgumentCode".toList := by
  refine ⟨by decide, ?_, by decide +kernel⟩
  intro w hw
  simp only [List.mem_cons, List.not_mem_nil, or_false] at hw
  rcases hw with rfl | rfl <;> refine ⟨by decide, by decide⟩

/-- The only exception is needed: `OK` has a constant of its own. -/
example : goCode "OK".toList = "OKCode".toList ∧ title "OK".toList = "Ok".toList := by decide +kernel

/-- A call with two errors: the first does not match; the second is declared with `NOT_FOUND` and `WARN`. -/
example : ∃ es, genEntries (V := Nat) (X := Unit) (D := Unit) (R := Unit)
    [⟨some "ABORTED".toList, none, ⟨none, fun _ => .ok false, false, none, none, none, [], .debug⟩⟩,
     ⟨some "NOT_FOUND".toList, some .warn, ⟨none, fun _ => .ok true, false, none, none, none, [], .debug⟩⟩] = .ok es ∧
    handleCallError (E := Unit) ⟨fun _ => true, fun _ => true⟩ id (fun _ v => v) (fun _ => some ⟨2, "m", []⟩) es () none 0 =
      .error (.status ⟨5, "m", []⟩, .warn) :=
  ⟨[⟨none, fun _ => .ok false, false, none, some 10, none, [], .error⟩, ⟨none, fun _ => .ok true, false, none, some 5, none, [], .warn⟩], rfl, rfl⟩

end Verif.ErrH
