import Verif.Prom.Model
import Verif.Enc.Render
/-!
# /repo/utils/prom: the text of a scrape (`Print` methods and http.go `Handler`)

Every `fmt.Fprintf` is one `Write` of one line. The writer is an `http.ResponseWriter` whose `n`-th `Write` fails or not; a failing
`Write` is taken to deliver nothing. Formatting of numbers (`%v`, `%f`) is a parameter.
-/
set_option autoImplicit false
namespace Verif.Prom
open Verif.Strconv Verif.Enc

/-- The response being written. http.go L8-19. -/
structure W where
  /-- the lines delivered -/
  out : List Str
  /-- number of `Write` calls so far -/
  calls : Nat
  /-- the status sent, if any: the first `Write` or `WriteHeader` fixes it (net/http) -/
  status : Option Nat
  deriving DecidableEq

/-- A response nothing was written to: http.go L8-19. -/
def W.start : W := ⟨[], 0, none⟩

/-- One `fmt.Fprintf(w, …)`; `true` is an error. `Write` sends the status 200 first if there is none yet. counter.go L34-63, gauge.go L65-87, histogram.go L56-123. -/
def fprintf (fails : Nat → Bool) (w : W) (line : Str) : W × Bool :=
  if fails w.calls then ({ w with calls := w.calls + 1, status := some (w.status.getD 200) }, true)
  else ({ out := w.out ++ [line], calls := w.calls + 1, status := some (w.status.getD 200) }, false)

/-- `w.WriteHeader(code)`: without effect once a status was sent. http.go L8-19. -/
def W.writeHeader (w : W) (code : Nat) : W := { w with status := some (w.status.getD code) }

/-- /repo/utils/sync/map.go L99-106 `RangeErr`, for an iteration order of the entries. -/
def rangeErr {K V S : Type} (f : K → V → S → S × Bool) : List (K × V) → S → S × Bool
  | [], s => (s, false)
  | (k, v) :: l, s =>
    match f k v s with
    | (s', true) => (s', true)
    | (s', false) => rangeErr f l s'

/-- The line of a description: gauge.go L65-87, histogram.go L56-72, custom.go L15-40. -/
def helpLine (name desc : Str) : Str := lit "# HELP " ++ name ++ lit " " ++ desc ++ lit "\n"
/-- The line of a type: gauge.go L65-87, histogram.go L56-72, custom.go L15-40. -/
def typeLine (name kind : Str) : Str := lit "# TYPE " ++ name ++ lit " " ++ kind ++ lit "\n"

/-- The two comment lines: counter.go L38-55, gauge.go L68-77, histogram.go L60-69, custom.go L20-27. -/
def header (fails : Nat → Bool) (name desc kind : Str) (w : W) : W × Bool :=
  match fprintf fails w (helpLine name desc) with
  | (w, true) => (w, true)
  | (w, false) => fprintf fails w (typeLine name kind)

/-- A sample: counter.go L56-62, gauge.go L78-85. -/
def sampleLine (name l v : Str) : Str :=
  if l = [] then name ++ lit " " ++ v ++ lit "\n" else name ++ lit "{" ++ l ++ lit "} " ++ v ++ lit "\n"

/-- counter.go L34-63 `Counter.Print` (kind "counter" or "gauge", `%f`) and gauge.go L65-87 `Gauge.Print` (kind "gauge", `%v`), for the
entries in the order the map yields them, with their values formatted. -/
def printSeries (fails : Nat → Bool) (name desc kind : Str) (entries : List (Str × Str)) (w : W) : W × Bool :=
  let r := rangeErr (fun l v (st : Bool × W) =>
    match (if st.1 then header fails name desc kind st.2 else (st.2, false)) with
    | (w, true) => ((false, w), true)
    | (w, false) => ((false, (fprintf fails w (sampleLine name l v)).1), (fprintf fails w (sampleLine name l v)).2)) entries (true, w)
  (r.1.2, r.2)

/-- Formatting of the numbers of a histogram: a bound with `%v`, a count with `%d`, the sum with `%f`. histogram.go L74-123. -/
structure NumFmt (F : Type) where
  bound : F → Str
  sum : F → Str
  count : Nat → Str

/-- The labels of a bucket line: histogram.go L80 / L103. -/
def bucketLine (name labels le cnt : Str) : Str :=
  name ++ lit "_bucket{" ++ (if labels = [] then [] else labels ++ lit ",") ++ lit "le=\"" ++ le ++ lit "\"} " ++ cnt ++ lit "\n"

/-- The lines of one series (histogram.go L76-123), of what `TS.print` reads (see there for the panic when it is printed too early). -/
def histLines {F : Type} (nf : NumFmt F) (name labels : Str) (p : Printed F) : List Str :=
  p.buckets.map (fun b => bucketLine name labels (nf.bound b.1) (nf.count b.2)) ++
    [bucketLine name labels (lit "+Inf") (nf.count p.inf), sampleLine (name ++ lit "_sum") labels (nf.sum p.sum),
      sampleLine (name ++ lit "_count") labels (nf.count p.count)]

/-- Writing lines one by one, returning at the first error. gauge.go L65-87, histogram.go L56-123, custom.go L15-40. -/
def writeAll (fails : Nat → Bool) : List Str → W → W × Bool
  | [], w => (w, false)
  | l :: ls, w =>
    match fprintf fails w l with
    | (w, true) => (w, true)
    | (w, false) => writeAll fails ls w

/-- histogram.go L56-72 `Histogram.Print`. -/
def printHist {F : Type} (nf : NumFmt F) (fails : Nat → Bool) (name desc : Str) (entries : List (Str × Printed F)) (w : W) : W × Bool :=
  let r := rangeErr (fun l p (st : Bool × W) =>
    match (if st.1 then header fails name desc (lit "histogram") st.2 else (st.2, false)) with
    | (w, true) => ((false, w), true)
    | (w, false) => ((false, (writeAll fails (histLines nf name l p) w).1), (writeAll fails (histLines nf name l p) w).2)) entries (true, w)
  (r.1.2, r.2)

/-- custom.go L15-40 `Custom.Print`; `m` is the map in some iteration order, with its values formatted. `m[k]` of a listed key is its value. -/
def printCustom (fails : Nat → Bool) (name desc kind : Str) (m : List (Str × Str)) (w : W) : W × Bool :=
  if m.length = 0 then (w, false)
  else
    match header fails name desc kind w with
    | (w, true) => (w, true)
    | (w, false) =>
      let ks := (m.map (·.1)).mergeSort (fun a b => decide (a ≤ b))
      writeAll fails (ks.map (fun k => k ++ lit " " ++ (m.lookup k).getD [] ++ lit "\n")) w

/-- A registered metric: what its `Print` does to the response. metric.go L47-49. -/
abbrev Metric := Str → W → W × Bool

/-- http.go L8-19 `Handler`, with the registered metrics in the order `Range` yields them. -/
def scrape (metrics : List (Str × Metric)) (w : W) : W :=
  match rangeErr (fun name (m : Metric) w => m name w) metrics w with
  | (w, true) => w.writeHeader 500
  | (w, false) => w

/-- The status the client sees: 200 if the handler never wrote. http.go L8-19. -/
def W.final (w : W) : Nat := w.status.getD 200

/-- The metrics of this package. counter.go L10-16, gauge.go L23-27, histogram.go L11-17, custom.go L9-13. -/
inductive Builtin (fails : Nat → Bool) : Metric → Prop where
  | series (desc kind : Str) (entries : List (Str × Str)) : Builtin fails (fun name => printSeries fails name desc kind entries)
  | hist {F : Type} (nf : NumFmt F) (desc : Str) (entries : List (Str × Printed F)) : Builtin fails (fun name => printHist nf fails name desc entries)
  | custom (desc kind : Str) (m : List (Str × Str)) : Builtin fails (fun name => printCustom fails name desc kind m)

end Verif.Prom
