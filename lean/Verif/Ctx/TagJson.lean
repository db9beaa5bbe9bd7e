import Verif.Ctx.Log
import Verif.Enc.Compact
/-!
# The JSON of tags (/repo/ctx/tags.go L14-41, /repo/ctx/error.go L78-89) and of logged errors (/repo/ctx/log/log.go L177-203)

Texts are sequences of characters: bytes that are no UTF-8 are not modelled. `json.Marshal` of other values is a parameter: its output, or the text of its error.
A map of tags is a list sorted by key, in the order `json.Marshal` writes it.
-/
set_option autoImplicit false
namespace Verif.Ctx.TagJson
open Verif.Strconv Verif.Enc Verif.Ctx

/-- The argument of `WithTag` (/repo/ctx/tags.go L16-29); `none` is a nil slice. -/
inductive TagVal where
  /-- `json.RawMessage` -/
  | raw (j : Option Str)
  /-- `ctx.JSON` -/
  | json (j : Option Str)
  /-- `[]byte` -/
  | bytes (j : Option Str)
  /-- anything else, by the result of `json.Marshal`: its output, or the message of /repo/ctx/tags.go L34 -/
  | other (r : Except Str Str)

/-- Texts of the standard library: the base64 form of bytes, and the message of /repo/ctx/tags.go L34 for a nil `ctx.JSON`, whose output is no JSON. -/
structure TagExt where
  b64 : Str → Str
  nilJson : Str

/-- The text kept for a tag: /repo/ctx/tags.go L16-36. -/
def tagJson (X : Ext) (E : TagExt) : TagVal → Str
  | .raw (some j) => j
  | .raw none => lit "null"
  | .json (some j) => j
  | .json none => jsonStr E.nilJson
  | .bytes (some j) => if validDoc X j then j else jsonStr (E.b64 j)
  | .bytes none => lit "null"
  | .other (.ok j) => j
  | .other (.error m) => jsonStr m

/-- /repo/ctx/tags.go L16-41 `WithTag`. -/
def withTag (X : Ext) (E : TagExt) (c : Ctx) (key : String) (v : TagVal) : Ctx := .tag key (String.ofList (tagJson X E v)) c

/-- A map of tags. /repo/ctx/log/log.go L22. -/
abbrev TagMap := List (Str × Str)

/-- /repo/ctx/log/log.go L35-42 `ExtractTags`. -/
def extractMap (c : Option Ctx) : TagMap :=
  (rangeTag (E := Empty) c (fun k j (out : TagMap) => (insertKey k.toList j.toList out, none)) []).1

/-- A log argument, as far as the tags are concerned: it rewrites them (`Loggable`), is an error, or neither. /repo/ctx/log/log.go L180-195. -/
inductive LArg where
  | loggable (f : TagMap → TagMap)
  | err (e : Errors.Err (List Str) (Option Ctx))
  | plain

/-- What is reported of an error: /repo/ctx/log/log.go L186-193. The stack and the tags are there if a `ctx.Error` is found, the tags if it has a context. -/
inductive Report where
  | bare (msg : Str)
  | stack (msg : Str) (st : List Str)
  | full (msg : Str) (st : List Str) (tags : TagMap)

/-- /repo/ctx/log/log.go L186-193; `errMsg` is `Error()`. -/
def report (errMsg : Errors.Err (List Str) (Option Ctx) → Str) (e : Errors.Err (List Str) (Option Ctx)) : Report :=
  match e.asCtx with
  | none => .bare (errMsg e)
  | some (st, none) => .stack (errMsg e) st
  | some (st, some c) => .full (errMsg e) st (extractMap (some c))

/-- Members of a map of tags, as `json.Marshal` writes them: `none` if one of them is no JSON. /repo/ctx/log/log.go L198. -/
def tagsText (X : Ext) : TagMap → Option Str
  | [] => some []
  | (k, j) :: l =>
    match viaMarshalJSON X j with
    | none => none
    | some t =>
      match l with
      | [] => some (jsonStr k ++ ':' :: t)
      | _ =>
        match tagsText X l with
        | none => none
        | some ts => some (jsonStr k ++ ':' :: (t ++ ',' :: ts))

/-- A list of strings (the stack). /repo/ctx/log/log.go L189, L198. -/
def strsText : List Str → Str
  | [] => []
  | [s] => jsonStr s
  | s :: l => jsonStr s ++ ',' :: strsText l

/-- The JSON of a report: a Go map, so its keys are written in order. /repo/ctx/log/log.go L198. -/
def reportText (X : Ext) : Report → Option Str
  | .bare m => some ('{' :: (jsonStr (lit "error") ++ ':' :: (jsonStr m ++ ['}'])))
  | .stack m st => some ('{' :: (jsonStr (lit "error") ++ ':' :: (jsonStr m ++ ',' :: (jsonStr (lit "stack") ++ ':' :: ('[' :: (strsText st ++ [']']) ++ ['}'])))))
  | .full m st tags =>
    match tagsText X tags with
    | none => none
    | some ts => some ('{' :: (jsonStr (lit "error") ++ ':' :: (jsonStr m ++ ',' :: (jsonStr (lit "stack") ++ ':' :: ('[' :: (strsText st ++ [']']) ++ ',' ::
        (jsonStr (lit "tags") ++ ':' :: ('{' :: (ts ++ ['}']) ++ ['}'])))))))

/-- The elements of the list of reports. /repo/ctx/log/log.go L198. -/
def reportsText (X : Ext) : List Report → Option Str
  | [] => some []
  | r :: l =>
    match reportText X r with
    | none => none
    | some t =>
      match l with
      | [] => some t
      | _ =>
        match reportsText X l with
        | none => none
        | some ts => some (t ++ ',' :: ts)

/-- The loop over the arguments: the tags as rewritten, and the reports. /repo/ctx/log/log.go L178-196. -/
def argLoop (errMsg : Errors.Err (List Str) (Option Ctx) → Str) : List LArg → TagMap → List Report → TagMap × List Report
  | [], tags, errs => (tags, errs)
  | .loggable f :: as, tags, errs => argLoop errMsg as (f tags) errs
  | .err e :: as, tags, errs => argLoop errMsg as tags (errs ++ [report errMsg e])
  | .plain :: as, tags, errs => argLoop errMsg as tags errs

/-- The tags after `FormatMsg`: /repo/ctx/log/log.go L177-203. -/
def formatTags (X : Ext) (errMsg : Errors.Err (List Str) (Option Ctx) → Str) (args : List LArg) (tags : TagMap) : TagMap :=
  let r := argLoop errMsg args tags []
  if r.2.length > 0 then
    match reportsText X r.2 with
    | some j => insertKey (lit "error") ('[' :: (j ++ [']'])) r.1
    | none => r.1
  else r.1

end Verif.Ctx.TagJson
