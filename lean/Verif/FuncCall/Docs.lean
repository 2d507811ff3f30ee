/-!
# Specification: the documented functions and methods

The indices of the files in `docs/cel`, without macros (`list.md`), constants and the accessors of enums.
-/

namespace Verif.FuncCall

/-- Library and name: `docs/cel/enum.md`, `log.md`, `rand.md`, `strings.md`, `time.md`, `url.md` and `uuid.md`. -/
def docFunctions : List (String × String) := [
  ("enum", "select"), ("log", "debug"), ("log", "info"), ("log", "warn"), ("log", "error"), ("log", "add"),
  ("rand", "newSource"), ("rand", "new"), ("strings", "clone"), ("strings", "compare"), ("strings", "contains"),
  ("strings", "containsAny"), ("strings", "containsRune"), ("strings", "count"), ("strings", "cut"),
  ("strings", "cutPrefix"), ("strings", "cutSuffix"), ("strings", "equalFold"), ("strings", "fields"),
  ("strings", "hasPrefix"), ("strings", "hasSuffix"), ("strings", "index"), ("strings", "indexAny"),
  ("strings", "indexByte"), ("strings", "indexRune"), ("strings", "join"), ("strings", "lastIndex"),
  ("strings", "lastIndexAny"), ("strings", "lastIndexByte"), ("strings", "repeat"), ("strings", "replace"),
  ("strings", "replaceAll"), ("strings", "split"), ("strings", "splitAfter"), ("strings", "splitAfterN"),
  ("strings", "splitN"), ("strings", "title"), ("strings", "toLower"), ("strings", "toTitle"),
  ("strings", "toUpper"), ("strings", "toValidUTF8"), ("strings", "trim"), ("strings", "trimLeft"),
  ("strings", "trimPrefix"), ("strings", "trimRight"), ("strings", "trimSpace"), ("strings", "trimSuffix"),
  ("strings", "appendBool"), ("strings", "appendFloat"), ("strings", "appendInt"), ("strings", "appendQuote"),
  ("strings", "appendQuoteRune"), ("strings", "appendQuoteRuneToASCII"), ("strings", "appendQuoteRuneToGraphic"),
  ("strings", "appendQuoteToASCII"), ("strings", "appendUint"), ("strings", "atoi"), ("strings", "canBackquote"),
  ("strings", "formatBool"), ("strings", "formatComplex"), ("strings", "formatFloat"), ("strings", "formatInt"),
  ("strings", "formatUint"), ("strings", "isGraphic"), ("strings", "isPrint"), ("strings", "itoa"),
  ("strings", "parseBool"), ("strings", "parseComplex"), ("strings", "parseFloat"), ("strings", "parseInt"),
  ("strings", "parseUint"), ("strings", "quote"), ("strings", "quoteRune"), ("strings", "quoteRuneToGraphic"),
  ("strings", "quoteToASCII"), ("strings", "quoteToGraphic"), ("strings", "quotedPrefix"), ("strings", "unquote"),
  ("strings", "unquoteChar"), ("time", "toDuration"), ("time", "parseDuration"), ("time", "since"),
  ("time", "until"), ("time", "LOCAL"), ("time", "UTC"), ("time", "fixedZone"), ("time", "loadLocation"),
  ("time", "loadLocationFromTZData"), ("time", "date"), ("time", "now"), ("time", "parse"), ("time", "unix"),
  ("time", "unixMicro"), ("time", "unixMilli"), ("url", "joinPath"), ("url", "pathEscape"), ("url", "pathUnescape"),
  ("url", "queryEscape"), ("url", "queryUnescape"), ("url", "parse"), ("url", "parseRequestURI"), ("url", "user"),
  ("url", "userPassword"), ("uuid", "new"), ("uuid", "newRandom"), ("uuid", "newRandomFromRand")]

/-- Type and name of the methods of the same files. -/
def docMethods : List (String × String) := [
  ("Source", "int63"), ("Source", "seed"), ("Rand", "expFloat64"), ("Rand", "float32"), ("Rand", "float64"),
  ("Rand", "int"), ("Rand", "int31"), ("Rand", "int31n"), ("Rand", "int63"), ("Rand", "int63n"), ("Rand", "intn"),
  ("Rand", "normFloat64"), ("Rand", "seed"), ("Rand", "uint32"), ("Duration", "abs"), ("Duration", "hours"),
  ("Duration", "microseconds"), ("Duration", "milliseconds"), ("Duration", "minutes"), ("Duration", "nanoseconds"),
  ("Duration", "round"), ("Duration", "seconds"), ("Duration", "string"), ("Duration", "truncate"),
  ("Location", "string"), ("Timestamp", "asTime"), ("Time", "add"), ("Time", "addDate"), ("Time", "after"),
  ("Time", "appendFormat"), ("Time", "before"), ("Time", "compare"), ("Time", "day"), ("Time", "equal"),
  ("Time", "format"), ("Time", "hour"), ("Time", "withLocation"), ("Time", "isDST"), ("Time", "isZero"),
  ("Time", "local"), ("Time", "location"), ("Time", "minute"), ("Time", "month"), ("Time", "nanosecond"),
  ("Time", "round"), ("Time", "second"), ("Time", "string"), ("Time", "sub"), ("Time", "truncate"), ("Time", "utc"),
  ("Time", "unix"), ("Time", "unixMicro"), ("Time", "unixMilli"), ("Time", "unixNano"), ("Time", "weekday"),
  ("Time", "year"), ("Time", "yearDay"), ("URL", "scheme"), ("URL", "opaque"), ("URL", "userinfo"), ("URL", "host"),
  ("URL", "path"), ("URL", "rawPath"), ("URL", "forceQuery"), ("URL", "rawQuery"), ("URL", "fragment"),
  ("URL", "rawFragment"), ("URL", "escapedFragment"), ("URL", "escapedPath"), ("URL", "hostname"), ("URL", "isAbs"),
  ("URL", "joinPath"), ("URL", "marshalBinary"), ("URL", "parse"), ("URL", "port"), ("URL", "query"),
  ("URL", "redacted"), ("URL", "requestURI"), ("URL", "resolveReference"), ("URL", "string"),
  ("URL", "unmarshalBinary"), ("Userinfo", "username"), ("Userinfo", "password"), ("Userinfo", "passwordSet"),
  ("Userinfo", "string"), ("UUID", "domain"), ("UUID", "id"), ("UUID", "time"), ("UUID", "urn"), ("UUID", "string"),
  ("UUID", "version")]

end Verif.FuncCall
