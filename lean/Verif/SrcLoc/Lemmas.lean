import Verif.SrcLoc.Spec

/-! # What is found in options -/

namespace Verif.SrcLoc

theorem messages_eq (v : Val) : messages v = lits v.elems := by
  cases v <;> simp [messages, lits, Val.lit?, Val.elems]

theorem collect_eq (m : Lit) (n : String) : collect m n = lits (elems m.fields n) := by
  unfold collect elems lits
  generalize m.fields = fs
  induction fs with
  | nil => rfl
  | cons e es ih =>
    rw [List.flatMap_cons, ih, List.filter_cons]
    by_cases h : e.1 = n
    · simp only [h, if_true, decide_true, List.flatMap_cons, List.filterMap_append, messages_eq, lits]
    · simp [h]

theorem deepest_nil (k : Kind) (m : Lit) : deepest k m [] = if k.ok m.val then some m.id else none := by
  rw [deepest]

theorem deepest_message (m : Lit) : deepest .message m [] = some m.id := by rw [deepest]; rfl

theorem field_leaf (kd : Kind) (m : Lit) (n : String) (k : Val → Option Id)
    (hk : ∀ v, k v = if kd.ok v then some v.id else none) : onField m n k = deepest kd m [.fld n] := by
  rw [deepest]
  unfold onField
  cases m.fields.find? fun e => e.1 = n with
  | none => rfl
  | some e => exact hk e.2

theorem field_str (m : Lit) (n : String) : onField m n strId = deepest .string m [.fld n] :=
  field_leaf .string m n strId fun v => by cases v <;> rfl

theorem field_ident (m : Lit) (n : String) : onField m n identId = deepest .flag m [.fld n] :=
  field_leaf .flag m n identId fun v => by cases v <;> rfl

theorem field_any (m : Lit) (n : String) : onField m n (fun v => some v.id) = deepest .any m [.fld n] :=
  field_leaf .any m n _ fun v => by cases v <;> rfl

theorem field_msg (kd : Kind) (m : Lit) (n : String) (r : List Step) (k : Lit → Option Id)
    (hr : r = [] → kd = .message) (hk : ∀ x, k x = deepest kd x r) : onField m n (onMsg k) = deepest kd m (.fld n :: r) := by
  rw [deepest]
  unfold onField
  cases m.fields.find? fun e => e.1 = n with
  | none => rfl
  | some e =>
    simp only [onMsg]
    cases r with
    | nil =>
      rw [hr rfl]
      cases he : e.2 <;> simp [Val.lit?, Kind.ok, Val.id]
      rw [hk, hr rfl, deepest_message]
    | cons s r =>
      cases he : e.2.lit? with
      | none => rfl
      | some x => exact hk x

theorem items_msg (kd : Kind) (m : Lit) (n : String) (i : Nat) (r : List Step) (k : List Lit → Option Id)
    (hk : ∀ l, k l = match l[i]? with | some x => deepest kd x r | none => none) :
    onItems m n k = deepest kd m (.itm n i :: r) := by
  rw [deepest]
  unfold onItems
  rw [collect_eq]
  cases lits (elems m.fields n) with
  | nil => rfl
  | cons x xs => exact hk (x :: xs)

theorem onIdx_eq (l : List Lit) (i : Nat) (k k' : Lit → Option Id) (h : ∀ x, k x = k' x) :
    onIdx l i k = match l[i]? with | some x => k' x | none => none := by
  unfold onIdx
  cases l[i]? with
  | none => rfl
  | some x => exact h x

/-! ## Empty paths -/

theorem ArgPart.kind_of_nil {p : ArgPart} (h : p.path = []) : p.kind = .message := by
  cases p <;> simp_all [ArgPart.path, ArgPart.kind]
theorem MsgExprPart.kind_of_nil {p : MsgExprPart} (h : p.path = []) : p.kind = .message := by
  cases p <;> simp_all [MsgExprPart.path, MsgExprPart.kind]
theorem EnumExprPart.kind_of_nil {p : EnumExprPart} (h : p.path = []) : p.kind = .message := by
  cases p <;> simp_all [EnumExprPart.path, EnumExprPart.kind]
theorem MapPart.kind_of_nil {p : MapPart} (h : p.path = []) : p.kind = .message := by
  cases p <;> simp_all [MapPart.path, MapPart.kind]
theorem RetryPart.kind_of_nil {p : RetryPart} (h : p.path = []) : p.kind = .message := by
  cases p <;> simp_all [RetryPart.path, RetryPart.kind]
theorem RequestPart.kind_of_nil {p : RequestPart} (h : p.path = []) : p.kind = .message := by
  cases p <;> simp_all [RequestPart.path, RequestPart.kind]
theorem CallPart.kind_of_nil {p : CallPart} (h : p.path = []) : p.kind = .message := by
  cases p <;> simp_all [CallPart.path, CallPart.kind]
theorem ErrPart.kind_of_nil {p : ErrPart} (h : p.path = []) : p.kind = .message := by
  cases p <;> simp_all [ErrPart.path, ErrPart.kind]
theorem DefPart.kind_of_nil {p : DefPart} (h : p.path = []) : p.kind = .message := by
  cases p <;> simp_all [DefPart.path, DefPart.kind]
theorem OneofPart.kind_of_nil {p : OneofPart} (h : p.path = []) : p.kind = .message := by
  cases p <;> simp_all [OneofPart.path, OneofPart.kind]
theorem EnvPart.kind_of_nil {p : EnvPart} (h : p.path = []) : p.kind = .message := by
  cases p <;> simp_all [EnvPart.path, EnvPart.kind]
theorem SvcValidationPart.kind_of_nil {p : SvcValidationPart} (h : p.path = []) : p.kind = .message := by
  cases p <;> simp_all [SvcValidationPart.path, SvcValidationPart.kind]

/-! ## Definitions -/

theorem argument_eq (l : List Lit) (i : Nat) (p : ArgPart) (h : p.searched = true) :
    argument l i p = match l[i]? with | some x => deepest p.kind x p.path | none => none := by
  unfold argument
  refine onIdx_eq l i _ _ fun x => ?_
  cases p with
  | none => exact (deepest_message x).symm
  | name => cases h
  | «by» => exact field_str x _
  | inline => exact field_str x _

theorem messageExpr_eq (m : Lit) (p : MsgExprPart) (h : p.searched = true) :
    messageExpr m p = deepest p.kind m p.path := by
  cases p with
  | none => exact (deepest_message m).symm
  | name => exact field_str m _
  | args i p => exact items_msg p.kind m "args" i p.path _ fun l => argument_eq l i p h

theorem enumExpr_eq (m : Lit) (p : EnumExprPart) : enumExpr m p = deepest p.kind m p.path := by
  cases p with
  | none => exact (deepest_message m).symm
  | name => exact field_str m _
  | «by» => exact field_str m _

theorem mapExpr_eq (m : Lit) (p : MapPart) (h : p.searched = true) : mapExpr m p = deepest p.kind m p.path := by
  cases p with
  | none => exact (deepest_message m).symm
  | iteratorName => cases h
  | iteratorSource => cases h
  | «by» => exact field_str m _
  | message p => exact field_msg _ m _ _ _ MsgExprPart.kind_of_nil fun x => messageExpr_eq x p h
  | enum p => exact field_msg _ m _ _ _ EnumExprPart.kind_of_nil fun x => enumExpr_eq x p

theorem retry_eq (m : Lit) (p : RetryPart) : retry m p = deepest p.kind m p.path := by
  cases p with
  | none => exact (deepest_message m).symm
  | «if» => exact field_str m _
  | interval => exact field_msg .any m _ _ _ (by simp) fun x => field_any x _
  | initialInterval => exact field_msg .any m _ _ _ (by simp) fun x => field_any x _
  | maxInterval => exact field_msg .any m _ _ _ (by simp) fun x => field_any x _

theorem request_eq (l : List Lit) (i : Nat) (p : RequestPart) :
    request l i p = match l[i]? with | some x => deepest p.kind x p.path | none => none := by
  unfold request
  refine onIdx_eq l i _ _ fun x => ?_
  cases p with
  | none => exact (deepest_message x).symm
  | field => exact field_str x _
  | «by» => exact field_str x _
  | «if» => exact field_str x _

theorem violation_eq (n : String) (l : List Lit) (i v : Nat) (f : String) :
    violation n l i v f = match l[i]? with | some x => deepest .string x [.itm n v, .fld f] | none => none := by
  unfold violation
  refine onIdx_eq l i _ _ fun x => ?_
  exact items_msg .string x n v [.fld f] _ fun l => onIdx_eq l v _ _ fun y => field_str y f

theorem localized_eq (l : List Lit) (i : Nat) (f : String) :
    localized l i f = match l[i]? with | some x => deepest .string x [.fld f] | none => none := by
  unfold localized
  exact onIdx_eq l i _ _ fun x => field_str x f

mutual
theorem defInfo_eq (l : List Lit) (i : Nat) : (p : DefPart) → (h : p.searched = true) →
    defInfo l i p = match l[i]? with | some x => deepest p.kind x p.path | none => none
  | .none, _ => by
    rw [defInfo, DefPart.kind, DefPart.path]
    exact onIdx_eq l i _ _ fun x => (deepest_message x).symm
  | .name, _ => by
    rw [defInfo, DefPart.kind, DefPart.path]
    exact onIdx_eq l i _ _ fun x => field_str x _
  | .if, _ => by
    rw [defInfo, DefPart.kind, DefPart.path]
    exact onIdx_eq l i _ _ fun x => field_str x _
  | .by, _ => by
    rw [defInfo, DefPart.kind, DefPart.path]
    exact onIdx_eq l i _ _ fun x => field_str x _
  | .map p, h => by
    rw [DefPart.searched] at h
    rw [defInfo, DefPart.kind, DefPart.path]
    exact onIdx_eq l i _ _ fun x =>
      field_msg _ x _ _ _ MapPart.kind_of_nil fun y => mapExpr_eq y p h
  | .call p, h => by
    rw [DefPart.searched] at h
    rw [defInfo, DefPart.kind, DefPart.path]
    exact onIdx_eq l i _ _ fun x =>
      field_msg _ x _ _ _ CallPart.kind_of_nil fun y => callExpr_eq y p h
  | .message p, h => by
    rw [DefPart.searched] at h
    rw [defInfo, DefPart.kind, DefPart.path]
    exact onIdx_eq l i _ _ fun x =>
      field_msg _ x _ _ _ MsgExprPart.kind_of_nil fun y => messageExpr_eq y p h
  | .enum p, _ => by
    rw [defInfo, DefPart.kind, DefPart.path]
    exact onIdx_eq l i _ _ fun x =>
      field_msg _ x _ _ _ EnumExprPart.kind_of_nil fun y => enumExpr_eq y p
  | .validation p, h => by
    rw [DefPart.searched] at h
    rw [defInfo, DefPart.kind, DefPart.path]
    refine onIdx_eq l i _ _ fun x => field_msg _ x _ _ _ (by simp) fun y => ?_
    unfold validation
    refine field_msg _ y _ _ _ ErrPart.kind_of_nil fun z => ?_
    exact grpcError_eq [z] 0 p h
theorem callExpr_eq (m : Lit) : (p : CallPart) → (h : p.searched = true) → callExpr m p = deepest p.kind m p.path
  | .none, _ => by rw [callExpr, CallPart.kind, CallPart.path]; exact (deepest_message m).symm
  | .method, _ => by rw [callExpr, CallPart.kind, CallPart.path]; exact field_str m _
  | .timeout, _ => by rw [callExpr, CallPart.kind, CallPart.path]; exact field_any m _
  | .retry p, _ => by
    rw [callExpr, CallPart.kind, CallPart.path]
    exact field_msg _ m _ _ _ RetryPart.kind_of_nil fun x => retry_eq x p
  | .request i p, _ => by
    rw [callExpr, CallPart.kind, CallPart.path]
    exact items_msg _ m _ i _ _ fun l => request_eq l i p
  | .error i p, h => by
    rw [CallPart.searched] at h
    rw [callExpr, CallPart.kind, CallPart.path]
    exact items_msg _ m _ i _ _ fun l => grpcError_eq l i p h
theorem grpcError_eq (l : List Lit) (i : Nat) : (p : ErrPart) → (h : p.searched = true) →
    grpcError l i p = match l[i]? with | some x => deepest p.kind x p.path | none => none
  | .none, _ => by
    rw [grpcError, ErrPart.kind, ErrPart.path]
    exact onIdx_eq l i _ _ fun x => (deepest_message x).symm
  | .if, _ => by
    rw [grpcError, ErrPart.kind, ErrPart.path]
    exact onIdx_eq l i _ _ fun x => field_str x _
  | .message, h => by rw [ErrPart.searched] at h; cases h
  | .ignore, _ => by
    rw [grpcError, ErrPart.kind, ErrPart.path]
    exact onIdx_eq l i _ _ fun x => field_ident x _
  | .ignoreAndResponse, _ => by
    rw [grpcError, ErrPart.kind, ErrPart.path]
    exact onIdx_eq l i _ _ fun x => field_str x _
  | .def j p, h => by
    rw [ErrPart.searched] at h
    rw [grpcError, ErrPart.kind, ErrPart.path]
    exact onIdx_eq l i _ _ fun x =>
      items_msg _ x _ j _ _ fun l => defInfo_eq l j p h
  | .detail j p, h => by
    rw [ErrPart.searched] at h
    rw [grpcError, ErrPart.kind, ErrPart.path]
    exact onIdx_eq l i _ _ fun x =>
      items_msg _ x _ j _ _ fun l => detail_eq l j p h
theorem detail_eq (l : List Lit) (i : Nat) : (p : DetailPart) → (h : p.searched = true) →
    detail l i p = match l[i]? with | some x => deepest p.kind x p.path | none => none
  | .none, _ => by
    rw [detail, DetailPart.kind, DetailPart.path]
    exact onIdx_eq l i _ _ fun x => (deepest_message x).symm
  | .if, _ => by
    rw [detail, DetailPart.kind, DetailPart.path]
    exact onIdx_eq l i _ _ fun x => field_str x _
  | .by, _ => by
    rw [detail, DetailPart.kind, DetailPart.path]
    exact onIdx_eq l i _ _ fun x => field_str x _
  | .def j p, h => by
    rw [DetailPart.searched] at h
    rw [detail, DetailPart.kind, DetailPart.path]
    exact onIdx_eq l i _ _ fun x =>
      items_msg _ x _ j _ _ fun l => defInfo_eq l j p h
  | .message j p, h => by
    rw [DetailPart.searched] at h
    rw [detail, DetailPart.kind, DetailPart.path]
    exact onIdx_eq l i _ _ fun x =>
      items_msg _ x _ j _ _ fun l => defInfo_eq l j p h
  | .precondition j v f, _ => by
    rw [detail, DetailPart.kind, DetailPart.path]
    exact onIdx_eq l i _ _ fun x =>
      items_msg _ x _ j _ _ fun l => violation_eq _ l j v f
  | .badRequest j v f, _ => by
    rw [detail, DetailPart.kind, DetailPart.path]
    exact onIdx_eq l i _ _ fun x =>
      items_msg _ x _ j _ _ fun l => violation_eq _ l j v f
  | .localized j f, _ => by
    rw [detail, DetailPart.kind, DetailPart.path]
    exact onIdx_eq l i _ _ fun x =>
      items_msg _ x _ j _ _ fun l => localized_eq l j f
end

/-! ## Service variables and the environment -/

theorem envVar_eq (l : List Lit) (i : Nat) (p : EnvVarPart) (h : p.searched = true) :
    envVar l i p = match l[i]? with | some x => deepest p.kind x p.path | none => none := by
  unfold envVar
  refine onIdx_eq l i _ _ fun x => ?_
  cases p with
  | none => exact (deepest_message x).symm
  | name => exact field_str x _
  | type => cases h

theorem env_eq (m : Lit) (p : EnvPart) (h : p.searched = true) : env m p = deepest p.kind m p.path := by
  cases p with
  | none => exact (deepest_message m).symm
  | message => exact field_str m _
  | var i p => exact items_msg p.kind m "var" i p.path _ fun l => envVar_eq l i p h

theorem svcValidation_eq (m : Lit) (p : SvcValidationPart) : svcValidation m p = deepest p.kind m p.path := by
  cases p with
  | none => exact (deepest_message m).symm
  | «if» => exact field_str m _
  | message => exact field_str m _

theorem svcVar_eq (l : List Lit) (i : Nat) (p : SvcVarPart) (h : p.searched = true) :
    svcVar l i p = match l[i]? with | some x => deepest p.kind x p.path | none => none := by
  unfold svcVar
  refine onIdx_eq l i _ _ fun x => ?_
  cases p with
  | none => exact (deepest_message x).symm
  | name => exact field_str x _
  | «if» => exact field_str x _
  | «by» => exact field_str x _
  | map p => exact field_msg _ x _ _ _ MapPart.kind_of_nil fun y => mapExpr_eq y p h
  | message p => exact field_msg _ x _ _ _ MsgExprPart.kind_of_nil fun y => messageExpr_eq y p h
  | enum p => exact field_msg _ x _ _ _ EnumExprPart.kind_of_nil fun y => enumExpr_eq y p
  | validation p => exact field_msg _ x _ _ _ SvcValidationPart.kind_of_nil fun y => svcValidation_eq y p

theorem attr_eq (l : List Lit) (i : Nat) (p : AttrPart) :
    attrInfo l i p = match l[i]? with | some x => deepest p.kind x p.path | none => none := by
  unfold attrInfo
  refine onIdx_eq l i _ _ fun x => ?_
  cases p with
  | none => exact (deepest_message x).symm
  | name => exact field_str x _
  | value => exact field_str x _

/-! ## Options -/

theorem messageOption_eq (o : Opt) (p : MsgOptPart) (i : Id) (fs : List (String × Val)) (ho : o.val = .msg i fs)
    (h : p.searched = true) : messageOption o p = deepest p.kind ⟨o.id, fs⟩ p.path := by
  unfold messageOption
  rw [ho]
  cases p with
  | none => exact (deepest_message ⟨o.id, fs⟩).symm
  | alias => exact field_any ⟨o.id, fs⟩ "alias"
  | «def» j p => exact items_msg p.kind ⟨o.id, fs⟩ "def" j p.path (fun l => defInfo l j p) fun l => defInfo_eq l j p h

theorem valueOption_eq (o : Opt) (p : ValueOptPart) (i : Id) (fs : List (String × Val)) (ho : o.val = .msg i fs) :
    valueOption o p = deepest p.kind ⟨o.id, fs⟩ p.path := by
  unfold valueOption
  rw [ho]
  cases p with
  | none => exact (deepest_message ⟨o.id, fs⟩).symm
  | alias => exact field_any ⟨o.id, fs⟩ "alias"
  | default => exact field_any ⟨o.id, fs⟩ "default"
  | attr j p => exact items_msg p.kind ⟨o.id, fs⟩ "attr" j p.path (fun l => attrInfo l j p) fun l => attr_eq l j p

theorem svcOption_eq (o : Opt) (p : SvcOptPart) (i : Id) (fs : List (String × Val)) (ho : o.val = .msg i fs)
    (h : p.searched = true) : svcOption o p = deepest p.kind ⟨o.id, fs⟩ p.path := by
  unfold svcOption
  rw [ho]
  cases p with
  | none => exact (deepest_message ⟨o.id, fs⟩).symm
  | env p => exact field_msg p.kind ⟨o.id, fs⟩ "env" p.path (fun x => env x p) EnvPart.kind_of_nil fun x => env_eq x p h
  | var j p => exact items_msg p.kind ⟨o.id, fs⟩ "var" j p.path (fun l => svcVar l j p) fun l => svcVar_eq l j p h

theorem methodOption_eq (o : Opt) (p : MethodOptPart) (i : Id) (fs : List (String × Val)) (ho : o.val = .msg i fs) :
    methodOption o p = deepest p.kind ⟨o.id, fs⟩ p.path := by
  unfold methodOption
  rw [ho]
  cases p with
  | none => exact (deepest_message ⟨o.id, fs⟩).symm
  | timeout => exact field_str ⟨o.id, fs⟩ "timeout"
  | response => exact field_str ⟨o.id, fs⟩ "response"

end Verif.SrcLoc
