/-!
# The functions of the library `grpc.federation.strings`

Models `grpc/federation/cel/strings.go` lines 39-780: which Go function a function of the library calls, how the values of the
arguments become arguments of that function, and how its results become values.  The functions of Go's packages `strings` and
`strconv` are a parameter.

Simplifications: texts and bytes are lists of numbers (below 256); an evaluation that panics is an error, as cel-go makes it
one; floating point numbers are numbers, since they are only passed on.
-/

namespace Verif.CelStr

abbrev Bytes := List Nat

/-- Values of expressions. -/
inductive Val where
  | str (b : Bytes)
  | bytes (b : Bytes)
  | int (i : Int)
  | uint (n : Nat)
  | bool (b : Bool)
  | double (d : Nat)
  | strs (l : List Bytes)
  | doubles (l : List Nat)
deriving DecidableEq

/-- Arguments and results of Go's functions. -/
inductive GoVal where
  | str (b : Bytes)
  | bytes (b : Bytes)
  | int (i : Int)
  | uint (n : Nat)
  | bool (b : Bool)
  | float (d : Nat)
  | strs (l : List Bytes)
  | complex (re im : Nat)
  | byte (n : Nat)
  | rune (i : Int)
deriving DecidableEq

/-- What a call of a Go function does.  An error is its text. -/
inductive Res where
  | ok (l : List GoVal)
  | err (text : List Char)
  | panic
deriving DecidableEq

/-- `rune(i)` for an `int64`: the lower 32 bits, signed. -/
def toRune (i : Int) : Int := if i % 4294967296 < 2147483648 then i % 4294967296 else i % 4294967296 - 4294967296

/-- How an argument is converted. -/
inductive Conv where
  | str | bytes | bytesOfStr | int | uint | bool | float | strs | complex
  /-- `rune(args[i].(types.Int).Value().(int64))` -/
  | runeOfInt
  /-- `args[i].(types.String).Value().(string)[0]` -/
  | byteOfStr
  /-- `rune(args[i].(types.String).Value().(string)[0])` -/
  | runeOfStr
  /-- `args[i].(types.Bytes).Value().(byte)` -/
  | byteOfBytes
  /-- `rune(args[i].(types.Bytes).Value().(byte))` -/
  | runeOfBytes
deriving DecidableEq

/-- The conversion of one argument; `none` is a panic.  The value of `types.Bytes` is a `[]byte`, never a `byte`.
`grpc/federation/cel/strings.go` lines 64 (texts), 81 (runes), 181 and 186 (bytes), 203-207 (lists of texts), 247 (numbers),
405 and 410 (bytes to append to), 418 (floating point numbers), 522 (unsigned numbers), 563-564 (complex numbers), 597 and
602 (runes). -/
def Conv.apply : Conv → Val → Option GoVal
  | .str, .str b => some (.str b)
  | .bytes, .bytes b => some (.bytes b)
  | .bytesOfStr, .str b => some (.bytes b)
  | .int, .int i => some (.int i)
  | .uint, .uint n => some (.uint n)
  | .bool, .bool b => some (.bool b)
  | .float, .double d => some (.float d)
  | .strs, .strs l => some (.strs l)
  | .complex, .doubles (a :: b :: _) => some (.complex a b)
  | .runeOfInt, .int i => some (.rune (toRune i))
  | .byteOfStr, .str (x :: _) => some (.byte x)
  | .runeOfStr, .str (x :: _) => some (.rune x)
  | _, _ => none

/-- Which of the results become the value. -/
inductive Out where
  | all
  /-- the last result (whether the text was found) is dropped -/
  | dropLast
deriving DecidableEq

/-- One overload of a function. -/
structure Fn where
  name : String
  go : String
  convs : List Conv
  out : Out := .all
deriving DecidableEq

/-- What an evaluation gives: values (a list of values for several results), an error with a message, or an error because of a
panic. -/
inductive Answer where
  | vals (l : List GoVal)
  | error (message : List Char)
  | internal
deriving DecidableEq

/-- `fmt.Sprintf` without arguments, which cel-go's `types.NewErr` applies to its format.  Simplified: flags, widths and
indices after a percent sign are taken as verbs. -/
def sprintf : List Char → List Char
  | [] => []
  | '%' :: [] => "%!(NOVERB)".toList
  | '%' :: '%' :: s => '%' :: sprintf s
  | '%' :: c :: s => "%!".toList ++ c :: "(MISSING)".toList ++ sprintf s
  | c :: s => c :: sprintf s

/-- All arguments. -/
def convert : List Conv → List Val → Option (List GoVal)
  | [], [] => some []
  | c :: cs, v :: vs =>
    match c.apply v with
    | none => none
    | some g => (convert cs vs).map (g :: ·)
  | _, _ => none

/-- A call of a function, `grpc/federation/cel/strings.go` lines 47-49 and so on; errors as in lines 535-539. -/
def Fn.call (go : String → List GoVal → Res) (f : Fn) (args : List Val) : Answer :=
  match convert f.convs args with
  | none => .internal
  | some gs =>
    match go f.go gs with
    | .panic => .internal
    | .err text => .error (sprintf text)
    | .ok l => .vals (match f.out with | .all => l | .dropLast => l.dropLast)

/-- The functions on texts, `grpc/federation/cel/strings.go` lines 43-399, except `clone` (lines 44-51), which returns its
argument.  `compare` calls the method of cel-go's strings. -/
def stringsFns : List Fn := [
  ⟨"compare", "String.Compare", [.str, .str], .all⟩,
  ⟨"contains", "strings.Contains", [.str, .str], .all⟩,
  ⟨"containsAny", "strings.ContainsAny", [.str, .str], .all⟩,
  ⟨"containsRune", "strings.ContainsRune", [.str, .runeOfInt], .all⟩,
  ⟨"count", "strings.Count", [.str, .str], .all⟩,
  ⟨"cut", "strings.Cut", [.str, .str], .dropLast⟩,
  ⟨"cutPrefix", "strings.CutPrefix", [.str, .str], .dropLast⟩,
  ⟨"cutSuffix", "strings.CutSuffix", [.str, .str], .dropLast⟩,
  ⟨"equalFold", "strings.EqualFold", [.str, .str], .all⟩,
  ⟨"fields", "strings.Fields", [.str], .all⟩,
  ⟨"hasPrefix", "strings.HasPrefix", [.str, .str], .all⟩,
  ⟨"hasSuffix", "strings.HasSuffix", [.str, .str], .all⟩,
  ⟨"index", "strings.Index", [.str, .str], .all⟩,
  ⟨"indexAny", "strings.IndexAny", [.str, .str], .all⟩,
  ⟨"indexByte", "strings.IndexByte", [.str, .byteOfBytes], .all⟩,
  ⟨"indexByte", "strings.IndexByte", [.str, .byteOfStr], .all⟩,
  ⟨"indexRune", "strings.IndexRune", [.str, .runeOfInt], .all⟩,
  ⟨"join", "strings.Join", [.strs, .str], .all⟩,
  ⟨"lastIndex", "strings.LastIndex", [.str, .str], .all⟩,
  ⟨"lastIndexAny", "strings.LastIndexAny", [.str, .str], .all⟩,
  ⟨"lastIndexByte", "strings.LastIndexByte", [.str, .byteOfBytes], .all⟩,
  ⟨"lastIndexByte", "strings.LastIndexByte", [.str, .byteOfStr], .all⟩,
  ⟨"repeat", "strings.Repeat", [.str, .int], .all⟩,
  ⟨"replace", "strings.Replace", [.str, .str, .str, .int], .all⟩,
  ⟨"replaceAll", "strings.ReplaceAll", [.str, .str, .str], .all⟩,
  ⟨"split", "strings.Split", [.str, .str], .all⟩,
  ⟨"splitAfter", "strings.SplitAfter", [.str, .str], .all⟩,
  ⟨"splitAfterN", "strings.SplitAfterN", [.str, .str, .int], .all⟩,
  ⟨"splitN", "strings.SplitN", [.str, .str, .int], .all⟩,
  ⟨"title", "cases.Title", [.str], .all⟩,
  ⟨"toLower", "strings.ToLower", [.str], .all⟩,
  ⟨"toTitle", "strings.ToTitle", [.str], .all⟩,
  ⟨"toUpper", "strings.ToUpper", [.str], .all⟩,
  ⟨"toValidUTF8", "strings.ToValidUTF8", [.str, .str], .all⟩,
  ⟨"trim", "strings.Trim", [.str, .str], .all⟩,
  ⟨"trimLeft", "strings.TrimLeft", [.str, .str], .all⟩,
  ⟨"trimPrefix", "strings.TrimPrefix", [.str, .str], .all⟩,
  ⟨"trimRight", "strings.TrimRight", [.str, .str], .all⟩,
  ⟨"trimSpace", "strings.TrimSpace", [.str], .all⟩,
  ⟨"trimSuffix", "strings.TrimSuffix", [.str, .str], .all⟩]

/-- The functions that convert, `grpc/federation/cel/strings.go` lines 400-770. -/
def strconvFns : List Fn := [
  ⟨"appendBool", "strconv.AppendBool", [.bytes, .bool], .all⟩,
  ⟨"appendBool", "strconv.AppendBool", [.bytesOfStr, .bool], .all⟩,
  ⟨"appendFloat", "strconv.AppendFloat", [.bytes, .float, .byteOfStr, .int, .int], .all⟩,
  ⟨"appendFloat", "strconv.AppendFloat", [.bytesOfStr, .float, .byteOfStr, .int, .int], .all⟩,
  ⟨"appendInt", "strconv.AppendInt", [.bytes, .int, .int], .all⟩,
  ⟨"appendInt", "strconv.AppendInt", [.bytesOfStr, .int, .int], .all⟩,
  ⟨"appendQuote", "strconv.AppendQuote", [.bytes, .str], .all⟩,
  ⟨"appendQuote", "strconv.AppendQuote", [.bytesOfStr, .str], .all⟩,
  ⟨"appendQuoteRune", "strconv.AppendQuoteRune", [.bytes, .runeOfStr], .all⟩,
  ⟨"appendQuoteRune", "strconv.AppendQuoteRune", [.bytesOfStr, .runeOfStr], .all⟩,
  ⟨"appendQuoteRuneToASCII", "strconv.AppendQuoteRuneToASCII", [.bytes, .runeOfStr], .all⟩,
  ⟨"appendQuoteRuneToASCII", "strconv.AppendQuoteRuneToASCII", [.bytesOfStr, .runeOfStr], .all⟩,
  ⟨"appendQuoteRuneToGraphic", "strconv.AppendQuoteRuneToGraphic", [.bytes, .runeOfStr], .all⟩,
  ⟨"appendQuoteRuneToGraphic", "strconv.AppendQuoteRuneToGraphic", [.bytesOfStr, .runeOfStr], .all⟩,
  ⟨"appendQuoteToASCII", "strconv.AppendQuoteToASCII", [.bytes, .str], .all⟩,
  ⟨"appendQuoteToASCII", "strconv.AppendQuoteToASCII", [.bytesOfStr, .str], .all⟩,
  ⟨"appendQuoteToGraphic", "strconv.AppendQuoteToGraphic", [.bytes, .str], .all⟩,
  ⟨"appendQuoteToGraphic", "strconv.AppendQuoteToGraphic", [.bytesOfStr, .str], .all⟩,
  ⟨"appendUint", "strconv.AppendUint", [.bytes, .uint, .int], .all⟩,
  ⟨"appendUint", "strconv.AppendUint", [.bytesOfStr, .uint, .int], .all⟩,
  ⟨"atoi", "strconv.Atoi", [.str], .all⟩,
  ⟨"canBackquote", "strconv.CanBackquote", [.str], .all⟩,
  ⟨"formatBool", "strconv.FormatBool", [.bool], .all⟩,
  ⟨"formatComplex", "strconv.FormatComplex", [.complex, .byteOfStr, .int, .int], .all⟩,
  ⟨"formatFloat", "strconv.FormatFloat", [.float, .byteOfStr, .int, .int], .all⟩,
  ⟨"formatInt", "strconv.FormatInt", [.int, .int], .all⟩,
  ⟨"formatUint", "strconv.FormatUint", [.uint, .int], .all⟩,
  ⟨"isGraphic", "strconv.IsGraphic", [.runeOfBytes], .all⟩,
  ⟨"isGraphic", "strconv.IsGraphic", [.runeOfStr], .all⟩,
  ⟨"isPrint", "strconv.IsPrint", [.runeOfBytes], .all⟩,
  ⟨"isPrint", "strconv.IsPrint", [.runeOfStr], .all⟩,
  ⟨"itoa", "strconv.Itoa", [.int], .all⟩,
  ⟨"parseBool", "strconv.ParseBool", [.str], .all⟩,
  ⟨"parseComplex", "strconv.ParseComplex", [.str, .int], .all⟩,
  ⟨"parseFloat", "strconv.ParseFloat", [.str, .int], .all⟩,
  ⟨"parseInt", "strconv.ParseInt", [.str, .int, .int], .all⟩,
  ⟨"parseUint", "strconv.ParseUint", [.str, .int, .int], .all⟩,
  ⟨"quote", "strconv.Quote", [.str], .all⟩,
  ⟨"quoteRune", "strconv.QuoteRune", [.runeOfStr], .all⟩,
  ⟨"quoteRuneToASCII", "strconv.QuoteRuneToASCII", [.runeOfStr], .all⟩,
  ⟨"quoteRuneToGraphic", "strconv.QuoteRuneToGraphic", [.runeOfStr], .all⟩,
  ⟨"quoteToASCII", "strconv.QuoteToASCII", [.str], .all⟩,
  ⟨"quoteToGraphic", "strconv.QuoteToGraphic", [.str], .all⟩,
  ⟨"quotedPrefix", "strconv.QuotedPrefix", [.str], .all⟩,
  ⟨"unquote", "strconv.Unquote", [.str], .all⟩,
  ⟨"unquoteChar", "strconv.UnquoteChar", [.str, .byteOfStr], .all⟩]

def fns : List Fn := stringsFns ++ strconvFns

/-! ## Appending to bytes

The functions that append give Go's slice as it is: `grpc/federation/cel/strings.go` lines 405, 418, 431, 444, 457, 470, 483,
496, 509 and 522 for bytes; lines 410 and so on copy the text first. -/

/-- A slice: the number of its array and its length. -/
structure Slice where
  arr : Nat
  len : Nat
deriving DecidableEq

/-- The arrays. -/
structure Heap where
  next : Nat
  arrays : Nat → Bytes

/-- The bytes of a slice. -/
def Heap.bytes (h : Heap) (s : Slice) : Bytes := (h.arrays s.arr).take s.len

/-- Go's `append`: in place, if the array has room for the new bytes; otherwise into a new array, whose spare room
is up to the runtime. -/
def append (spare : Nat → Nat) (h : Heap) (s : Slice) (text : Bytes) : Heap × Slice :=
  let a := h.arrays s.arr
  if s.len + text.length ≤ a.length then
    ({ h with arrays := fun i => if i = s.arr then a.take s.len ++ text ++ a.drop (s.len + text.length) else h.arrays i },
      ⟨s.arr, s.len + text.length⟩)
  else
    (⟨h.next + 1, fun i => if i = h.next then a.take s.len ++ text ++ List.replicate (spare (s.len + text.length)) 0
      else h.arrays i⟩, ⟨h.next, s.len + text.length⟩)

end Verif.CelStr
