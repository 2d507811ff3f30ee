/-!
# The value of the `error` variable

Models the loop of `SetGRPCError` over the details of the status, `grpc/federation/cel.go` lines
823-871, with the fields of `grpc.federation.private.Error`.
-/

namespace Verif.ErrVar

/-- The Go type of a decoded detail, lines 847-870; `other` is every other message type. -/
inductive Kind where
  | errorInfo | retryInfo | debugInfo | quotaFailure | preconditionFailure | badRequest
  | requestInfo | resourceInfo | help | localizedMessage | other
deriving DecidableEq, Repr

/-- A detail as returned by `Status.Details()`: `proto` is false for one that could not be decoded
(line 828), `packs` says whether `anypb.New` succeeds (line 837). -/
structure RawDetail (M : Type) where
  kind : Kind
  msg : M
  proto : Bool
  packs : Bool
deriving DecidableEq, Repr

/-- `grpcfedcel.Error`. -/
structure ErrVal (M : Type) where
  code : Nat
  message : String
  details : List M := []
  errorInfo : List M := []
  retryInfo : List M := []
  debugInfo : List M := []
  quotaFailures : List M := []
  preconditionFailures : List M := []
  badRequests : List M := []
  requestInfo : List M := []
  resourceInfo : List M := []
  helps : List M := []
  localizedMessages : List M := []
  customMessages : List M := []
deriving DecidableEq, Repr

/-- The switch, lines 847-870. -/
def addTyped {M} (g : ErrVal M) (k : Kind) (m : M) : ErrVal M :=
  match k with
  | .errorInfo => { g with errorInfo := g.errorInfo ++ [m] }
  | .retryInfo => { g with retryInfo := g.retryInfo ++ [m] }
  | .debugInfo => { g with debugInfo := g.debugInfo ++ [m] }
  | .quotaFailure => { g with quotaFailures := g.quotaFailures ++ [m] }
  | .preconditionFailure => { g with preconditionFailures := g.preconditionFailures ++ [m] }
  | .badRequest => { g with badRequests := g.badRequests ++ [m] }
  | .requestInfo => { g with requestInfo := g.requestInfo ++ [m] }
  | .resourceInfo => { g with resourceInfo := g.resourceInfo ++ [m] }
  | .help => { g with helps := g.helps ++ [m] }
  | .localizedMessage => { g with localizedMessages := g.localizedMessages ++ [m] }
  | .other => { g with customMessages := g.customMessages ++ [m] }

/-- One iteration, lines 827-871. -/
def addDetail {M} (g : ErrVal M) (d : RawDetail M) : ErrVal M :=
  if d.proto = false then g
  else if d.packs = false then g
  else addTyped { g with details := g.details ++ [d.msg] } d.kind d.msg

/-- Lines 823-871. -/
def errValue {M} (code : Nat) (message : String) (ds : List (RawDetail M)) : ErrVal M :=
  ds.foldl addDetail { code, message }

/-- The field of the error value that holds the details of a kind, as documented for the `error`
variable. -/
def fieldOf {M} (g : ErrVal M) : Kind → List M
  | .errorInfo => g.errorInfo
  | .retryInfo => g.retryInfo
  | .debugInfo => g.debugInfo
  | .quotaFailure => g.quotaFailures
  | .preconditionFailure => g.preconditionFailures
  | .badRequest => g.badRequests
  | .requestInfo => g.requestInfo
  | .resourceInfo => g.resourceInfo
  | .help => g.helps
  | .localizedMessage => g.localizedMessages
  | .other => g.customMessages

/-- The details that can be read at all. -/
def readable {M} (ds : List (RawDetail M)) : List (RawDetail M) := ds.filter (fun d => d.proto && d.packs)

theorem addDetail_spec {M} (g : ErrVal M) (d : RawDetail M) :
    (addDetail g d).code = g.code ∧ (addDetail g d).message = g.message ∧
    (addDetail g d).details = g.details ++ (readable [d]).map (·.msg) ∧
    ∀ k, fieldOf (addDetail g d) k = fieldOf g k ++ ((readable [d]).filter (·.kind == k)).map (·.msg) := by
  obtain ⟨kd, m, p, q⟩ := d
  cases p <;> cases q <;> cases kd <;>
    simp [addDetail, addTyped, readable] <;> (try (intro k; cases k <;> simp [fieldOf]))

/-- C54. The `error` variable holds the status' code and message; its `details` are the readable
details of the status in order, and every typed list holds exactly the details of its type, in
order. -/
theorem C54_error_value {M} (code : Nat) (message : String) (ds : List (RawDetail M)) :
    (errValue code message ds).code = code ∧ (errValue code message ds).message = message ∧
    (errValue code message ds).details = (readable ds).map (·.msg) ∧
    ∀ k, fieldOf (errValue code message ds) k = ((readable ds).filter (·.kind == k)).map (·.msg) := by
  have key : ∀ (ds : List (RawDetail M)) (g : ErrVal M),
      (ds.foldl addDetail g).code = g.code ∧ (ds.foldl addDetail g).message = g.message ∧
      (ds.foldl addDetail g).details = g.details ++ (readable ds).map (·.msg) ∧
      ∀ k, fieldOf (ds.foldl addDetail g) k = fieldOf g k ++ ((readable ds).filter (·.kind == k)).map (·.msg) := by
    intro ds
    induction ds with
    | nil => intro g; simp [readable]
    | cons d ds ih =>
      intro g
      have hr : readable (d :: ds) = readable [d] ++ readable ds := by
        simp only [readable, List.filter_cons, List.filter_nil]
        split <;> simp
      obtain ⟨a1, a2, a3, a4⟩ := addDetail_spec g d
      obtain ⟨b1, b2, b3, b4⟩ := ih (addDetail g d)
      rw [List.foldl_cons, hr]
      refine ⟨b1.trans a1, b2.trans a2, ?_, ?_⟩
      · rw [b3, a3]; simp
      · intro k; rw [b4, a4]; simp
  obtain ⟨a1, a2, a3, a4⟩ := key ds { code, message }
  refine ⟨a1, a2, by simpa [errValue] using a3, ?_⟩
  intro k
  have := a4 k
  cases k <;> simpa [errValue, fieldOf] using this

/-- C54, every readable detail is in exactly one typed list: their lengths add up. -/
theorem C54_partition {M} (code : Nat) (message : String) (ds : List (RawDetail M)) :
    (errValue code message ds).details.length =
      ([Kind.errorInfo, .retryInfo, .debugInfo, .quotaFailure, .preconditionFailure, .badRequest,
        .requestInfo, .resourceInfo, .help, .localizedMessage, .other].map
          (fun k => (fieldOf (errValue code message ds) k).length)).sum := by
  obtain ⟨_, _, a3, a4⟩ := C54_error_value code message ds
  simp only [a3, a4]
  induction readable ds with
  | nil => rfl
  | cons d l ih =>
    simp only [List.map_cons, List.length_cons, List.map_nil, List.sum_cons, List.sum_nil,
      List.filter_cons, List.length_map] at ih ⊢
    cases d.kind <;> simp <;> omega

example : (errValue 5 "m" [⟨.help, 1, true, true⟩, ⟨.other, 2, true, true⟩, ⟨.help, 3, true, true⟩,
    ⟨.errorInfo, 4, false, true⟩]).helps = [1, 3] := rfl

end Verif.ErrVar
