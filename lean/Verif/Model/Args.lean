import Verif.Model.Dump
import Verif.Model.RelIndex

/-!
# Model of the command lines

What go-flags makes of the command line (a parse error, or the options and the words that are no options) is an arbitrary
value: the parser itself, the defaults and the text of the help are not modelled. What is written is a list of values, one
per `WriteHelp`/`Fprintf`.
-/

namespace Osm.Args
open Osm

/-- What `ParseArgs` can fail with: an error of go-flags (of type `ErrHelp` or of another type), or another error. -/
inductive Err where
  | flags (isHelp : Bool) (msg : String)
  | other (msg : String)
deriving DecidableEq, Repr

/-- internal/args/help.go:10-29, cmd/rewritenodes/args.go:67-86 and cmd/tagfilter/args.go:64-83; `none` is a nil error. -/
def IsHelp : Option Err → Bool
  | none => false
  | some (.other _) => false
  | some (.flags isHelp _) => isHelp

/-- The result of `parser.ParseArgs`. -/
inductive Parsed (α : Type) where
  | failed (e : Err)
  | parsed (positional : List String) (opts : α)

/-- Where something is written. -/
inductive Stream where
  | stdout | stderr
deriving DecidableEq, Repr

/-- What is written: the help, the blank lines, the line for a parse error, the line for a fault. -/
inductive Text where
  | help
  | blank
  | parseError (e : Err)
  | fault (s : String)
deriving DecidableEq, Repr

/-- How `parseArgs` ends. -/
inductive Start (α : Type) where
  | exit (code : Nat) (written : List (Stream × Text))
  | run (opts : α)

/-- internal/system/args.go:3-8 -/
structure SystemOpts where
  MaxThreads : Option Int64
  CpuProfile : Option String
  MemProfile : Option String
  MemProfileRate : Option Int64
deriving DecidableEq, Repr

/-- internal/system/args.go:10-16 -/
def SystemOpts.Validate (o : SystemOpts) : List String :=
  if o.MemProfileRate.isSome && o.MemProfile.isNone then ["mem-profile-rate requires mem-profile"] else []

/-- internal/ui/args.go:7-9 -/
structure UIOpts where
  Refresh : Int64
deriving DecidableEq, Repr

/-- internal/ui/args.go:11-13 -/
def UIOpts.Validate (_ : UIOpts) : List String := []

/-- The `len(positional) != 0` check, the same in all commands (for instance cmd/nodeindex/args.go:43-46). -/
def positionalErrors (positional : List String) : List String :=
  if positional.length != 0 then ["no positional arguments allowed"] else []

/-- The last part of all `parseArgs` (for instance cmd/nodeindex/args.go:51-60). -/
def report {α : Type} (errors : List String) (opts : α) : Start α :=
  if errors.length > 0 then
    .exit 1 ([(.stderr, .help), (.stderr, .blank)] ++ errors.map fun e => (.stderr, .fault e))
  else .run opts

/-- The error branch, the same in all commands (for instance cmd/nodeindex/args.go:32-40). -/
def failure {α : Type} (e : Err) : Start α :=
  if !IsHelp (some e) then .exit 1 [(.stderr, .help), (.stderr, .parseError e)]
  else .exit 0 [(.stdout, .help)]

/-- cmd/blockcount/args.go:14-18 and cmd/entitycount/args.go:14-18 -/
structure CountOpts extends SystemOpts where
  InputFile : String
  Workers : Int64

/-- cmd/blockcount/args.go:20-58 and cmd/entitycount/args.go:20-57 -/
def parseCount : Parsed CountOpts → Start CountOpts
  | .failed e => failure e
  | .parsed positional opts => report (positionalErrors positional ++ opts.toSystemOpts.Validate) opts

/-- cmd/entityfind/args.go:14-19 -/
structure FindOpts extends SystemOpts where
  InputFile : String
  Workers : Int64
  EntityID : List UInt64

/-- cmd/entityfind/args.go:21-58 -/
def parseFind : Parsed FindOpts → Start FindOpts
  | .failed e => failure e
  | .parsed positional opts => report (positionalErrors positional ++ opts.toSystemOpts.Validate) opts

/-- cmd/decompress/args.go:15-21, cmd/nodeindex/args.go:15-21 and cmd/tagfilter/args.go:14-20 -/
structure FileOpts extends UIOpts, SystemOpts where
  InputFile : String
  OutputFile : String
  Workers : Int64

/-- cmd/decompress/args.go:23-62 and cmd/nodeindex/args.go:23-61 -/
def parseFile : Parsed FileOpts → Start FileOpts
  | .failed e => failure e
  | .parsed positional opts =>
    report (positionalErrors positional ++ opts.toUIOpts.Validate ++ opts.toSystemOpts.Validate) opts

/-- cmd/tagfilter/args.go:22-59 (without the `Validate` of the UI options) -/
def parseTagfilter : Parsed FileOpts → Start FileOpts
  | .failed e => failure e
  | .parsed positional opts => report (positionalErrors positional ++ opts.toSystemOpts.Validate) opts

/-- cmd/wayindex/args.go:15-22 -/
structure WayOpts extends FileOpts where
  Alignment : Int64

/-- cmd/wayindex/args.go:24-62 -/
def parseWayindex : Parsed WayOpts → Start WayOpts
  | .failed e => failure e
  | .parsed positional opts =>
    report (positionalErrors positional ++ opts.toUIOpts.Validate ++ opts.toSystemOpts.Validate) opts

/-- cmd/relindex/args.go:15-25 -/
structure RelOpts extends FileOpts where
  WayIndex : String
  Passes : Int64

/-- cmd/relindex/args.go:27-65 -/
def parseRelindex : Parsed RelOpts → Start RelOpts
  | .failed e => failure e
  | .parsed positional opts =>
    report (positionalErrors positional ++ opts.toUIOpts.Validate ++ opts.toSystemOpts.Validate) opts

/-- cmd/rewritenodes/args.go:14-23. Simplification: the timing factor is left out. -/
structure RewriteOpts extends FileOpts where
  IndexFile : String
  Memory : Option UInt64

/-- cmd/rewritenodes/args.go:25-62 -/
def parseRewritenodes : Parsed RewriteOpts → Start RewriteOpts
  | .failed e => failure e
  | .parsed positional opts => report (positionalErrors positional ++ opts.toSystemOpts.Validate) opts

/-- cmd/dumpnodeindex/args.go:13-22 -/
structure DumpNodeOpts extends SystemOpts where
  InputFile : String
  PrintLocations : Bool
  SearchIndex : Bool
  SubIndexIndex : Option UInt64
  SubIndexCount : Option UInt64
  StartElement : Option Int
  EndElement : Option Int

/-- cmd/dumpnodeindex/args.go:54-60: `lt a b` is `a < b`. -/
def subErrors {α : Type} (lt : α → α → Bool) (index count : Option α) : List String :=
  (if count.isSome != index.isSome then ["sub-index-count and sub-index-index must be specified together"] else []) ++
  (match count, index with
   | some c, some i => if !lt i c then ["sub-index-index must be below sub-index-count"] else []
   | _, _ => [])

/-- cmd/dumpnodeindex/args.go:24-72 -/
def parseDumpnode : Parsed DumpNodeOpts → Start DumpNodeOpts
  | .failed e => failure e
  | .parsed positional opts =>
    report (positionalErrors positional ++ opts.toSystemOpts.Validate ++
      subErrors (fun a b => decide (a < b)) opts.SubIndexIndex opts.SubIndexCount) opts

/-- cmd/dumpwayindex/args.go:13-20 -/
structure DumpWayOpts extends SystemOpts where
  InputFile : String
  PrintLocations : Bool
  SearchIndex : Bool
  SubIndexIndex : Option Int64
  SubIndexCount : Option Int64

/-- cmd/dumpwayindex/args.go:22-70 -/
def parseDumpway : Parsed DumpWayOpts → Start DumpWayOpts
  | .failed e => failure e
  | .parsed positional opts =>
    report (positionalErrors positional ++ opts.toSystemOpts.Validate ++
      subErrors (fun a b => decide (a < b)) opts.SubIndexIndex opts.SubIndexCount) opts

/-- cmd/dumpnodeindex/dumpnodeindex.go:20-25: dereferencing both options if the first is there (`none`: a nil
dereference). -/
def pairOf {α : Type} (index count : Option α) : Res (Option (α × α)) :=
  match index with
  | none => .ok none
  | some i => match count with
    | some c => .ok (some (i, c))
    | none => .panic

/-- cmd/dumpnodeindex/dumpnodeindex.go:12-89, on the bytes of the index file. -/
def dumpnodeindex (o : DumpNodeOpts) (file : List UInt8) : Res (List Dump.NodeLine) := do
  let p ← pairOf o.SubIndexIndex o.SubIndexCount
  Dump.dumpNodes ⟨o.PrintLocations, o.SearchIndex, p, o.StartElement, o.EndElement⟩ file

/-- cmd/dumpwayindex/dumpwayindex.go:12-42, on the bytes of the index file. -/
def dumpwayindex (o : DumpWayOpts) (file : List UInt8) : Res (List Dump.WayLine) := do
  let p ← pairOf o.SubIndexIndex o.SubIndexCount
  Dump.dumpWays ⟨o.PrintLocations, o.SearchIndex, p⟩ file

/-- internal/pbf/process.go:90-98: the number of workers started; `WaitGroup.Add` panics for a negative number. -/
def startWorkers (workers : Int64) : Res Nat :=
  if workers.toInt < 0 then .panic else .ok workers.toInt.toNat

/-- cmd/relindex/relindex.go:127: how often the loop over the passes runs. -/
def relPasses (o : RelOpts) : Nat := o.Passes.toInt.toNat

end Osm.Args
