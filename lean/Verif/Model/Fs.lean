import Verif.Go

/-!
# Model of files, internal/iunsafe/slices.go and internal/iio/wrappers.go

A program's effect on the file system is the list of operations it performs; a crash is a prefix of
that list, with the last write possibly cut short. Only single-process effects are modelled (no other
process touches the files); what the kernel has not yet written to disk at a power failure is not.
-/

namespace Osm
open Osm

/-! ## iunsafe -/

/-- The 64-bit little-endian word in eight bytes. -/
def leWord (b0 b1 b2 b3 b4 b5 b6 b7 : UInt8) : UInt64 :=
  b0.toUInt64 ||| b1.toUInt64 <<< 8 ||| b2.toUInt64 <<< 16 ||| b3.toUInt64 <<< 24 |||
  b4.toUInt64 <<< 32 ||| b5.toUInt64 <<< 40 ||| b6.toUInt64 <<< 48 ||| b7.toUInt64 <<< 56

/-- internal/iunsafe/slices.go:19-28: bytes viewed as words (`Len / 8`, a trailing partial word is
dropped). -/
def wordsOf : List UInt8 → List UInt64
  | b0 :: b1 :: b2 :: b3 :: b4 :: b5 :: b6 :: b7 :: bs => leWord b0 b1 b2 b3 b4 b5 b6 b7 :: wordsOf bs
  | _ => []

/-- internal/iunsafe/slices.go:30-50: words viewed as bytes. -/
def bytesOf (ws : List UInt64) : List UInt8 := ws.flatMap le64

/-- internal/iunsafe/slices.go:19-28 -/
def ByteSliceAsInt64Slice (bs : List UInt8) : List Int64 := (wordsOf bs).map (·.toInt64)
/-- internal/iunsafe/slices.go:30-39 -/
def Int64SliceAsByteSlice (xs : List Int64) : List UInt8 := bytesOf (xs.map (·.toUInt64))

/-- Two words per element: internal/iunsafe/slices.go:52-74 for a 16-byte struct (`Len / 16`). -/
def pairsOf : List UInt64 → List (UInt64 × UInt64)
  | a :: b :: ws => (a, b) :: pairsOf ws
  | _ => []

/-! ## Files -/

/-- An open file: its content and the position of the handle. -/
structure File where
  data : List UInt8
  pos : Nat
deriving DecidableEq, Repr

/-- The file system: names to files. -/
abbrev FS := String → Option File

/-- One effect on the file system. -/
inductive FsOp where
  /-- `os.Create`: truncates. -/
  | create (f : String)
  /-- `Write` at the handle's position. -/
  | write (f : String) (bs : List UInt8)
  /-- `Seek(0, io.SeekStart)`. -/
  | rewind (f : String)
  /-- `Read`: advances the handle. -/
  | advance (f : String) (n : Nat)
  /-- `os.Remove`. -/
  | remove (f : String)
deriving DecidableEq, Repr

/-- Overwriting at a position. -/
def File.write (f : File) (bs : List UInt8) : File :=
  ⟨f.data.take f.pos ++ bs ++ f.data.drop (f.pos + bs.length), f.pos + bs.length⟩

/-- Changing one file. -/
def FS.set (fs : FS) (f : String) (x : Option File) : FS := fun g => if g = f then x else fs g

/-- The effect of one operation. -/
def FsOp.run (fs : FS) : FsOp → FS
  | .create f => fs.set f (some ⟨[], 0⟩)
  | .write f bs => fs.set f ((fs f).map (·.write bs))
  | .rewind f => fs.set f ((fs f).map fun x => ⟨x.data, 0⟩)
  | .advance f n => fs.set f ((fs f).map fun x => ⟨x.data, x.pos + n⟩)
  | .remove f => fs.set f none

/-- The effect of several operations. -/
def runOps (ops : List FsOp) (fs : FS) : FS := ops.foldl FsOp.run fs

/-- `fs'` is what a crash during `ops` can leave: some operations done, the next one not at all or, if
it is a write, only a prefix of its bytes. -/
def CrashState (ops : List FsOp) (fs fs' : FS) : Prop :=
  ∃ done rest, ops = done ++ rest ∧
    (fs' = runOps done fs ∨
     ∃ f bs more k, rest = .write f bs :: more ∧ fs' = (FsOp.write f (bs.take k)).run (runOps done fs))

/-! ## Programs with file effects -/

/-- A program started in a file system: the operations it performs and how it ends. -/
def Prog (α : Type) := FS → List FsOp × Res α

namespace Prog

/-- Return a value. -/
def pure {α : Type} (a : α) : Prog α := fun _ => ([], .ok a)

/-- Sequencing; a panic stops the process. -/
def bind {α β : Type} (p : Prog α) (f : α → Prog β) : Prog β := fun fs =>
  match p fs with
  | (ops, .ok a) => let r := f a (runOps ops fs); (ops ++ r.1, r.2)
  | (ops, .panic) => (ops, .panic)
  | (ops, .hang) => (ops, .hang)

instance : Monad Prog where
  pure := Prog.pure
  bind := Prog.bind

/-- Perform one operation. -/
def emit (op : FsOp) : Prog Unit := fun _ => ([op], .ok ())

/-- A pure computation that may panic. -/
def lift {α : Type} (r : Res α) : Prog α := fun _ => ([], r)

/-- The bytes of a file from its handle's position, as the program would read them. -/
def rest (f : String) : Prog (List UInt8) := fun fs =>
  ([], Res.ofOption ((fs f).map fun x => x.data.drop x.pos))

end Prog

/-! ## iio -/

/-- internal/iio/wrappers.go:117-123 -/
def OsCreate (f : String) : Prog Unit := .emit (.create f)
/-- internal/iio/wrappers.go:131-133: an error (no such file) is ignored. -/
def OsRemoveTry (f : String) : Prog Unit := .emit (.remove f)
/-- internal/iio/wrappers.go:109-115: panics if the file does not exist. -/
def OsOpen (f : String) : Prog Unit := fun fs => ([], if (fs f).isSome then .ok () else .panic)
/-- internal/iio/wrappers.go:125-129: panics if the file does not exist. -/
def OsRemove (f : String) : Prog Unit := do
  OsOpen f
  Prog.emit (.remove f)
/-- internal/iio/wrappers.go:60-66: the bytes of a whole (open) file. `mmap` fails, and `MMapMap` panics, if it
is empty. -/
def MMapMap (f : String) : Prog (List UInt8) := fun fs =>
  ([], match fs f with
    | none => .panic
    | some x => if x.data = [] then .panic else .ok x.data)
/-- internal/iio/wrappers.go:12-19 (see `fWriteOnce` for the call of `Write`). -/
def FWriteSliceI64 (f : String) (xs : List Int64) : Prog Unit := .emit (.write f (Int64SliceAsByteSlice xs))
/-- internal/iio/wrappers.go:21-28 -/
def FWriteSliceU64 (f : String) (xs : List UInt64) : Prog Unit := .emit (.write f (bytesOf xs))
/-- internal/iio/wrappers.go:30-36 with offset 0 from the start. -/
def FSeekStart (f : String) : Prog Unit := .emit (.rewind f)

/-- What a `Write` call returned: how many bytes it wrote, and whether it reported an error. -/
structure WriteRet where
  n : Nat
  err : Bool
deriving DecidableEq, Repr

/-- internal/iio/wrappers.go:82-95. `env k` is what the k-th call of `Write` does (`n` is capped at the
length of the slice, as `io.Writer` guarantees). Returns what was written by each call and how it ended. `fuel` bounds
the iterations; each writes at least a byte. -/
def fWriteLoop (env : Nat → WriteRet) : Nat → Nat → List UInt8 → List (List UInt8) × Res Unit
  | 0, _, _ => ([], .hang)
  | fuel + 1, k, buf =>
    if buf.length > 0 then
      let r := env k
      let n := min r.n buf.length
      if r.err then ([buf.take n], .panic)
      else if n = 0 then ([], .panic)
      else
        let rest := fWriteLoop env fuel (k + 1) (buf.drop n)
        (buf.take n :: rest.1, rest.2)
    else ([], .ok ())

/-- internal/iio/wrappers.go:82-95: the effects. -/
def fWrite (env : Nat → WriteRet) (f : String) (buf : List UInt8) : Prog Unit := fun _ =>
  let r := fWriteLoop env (buf.length + 1) 0 buf
  (r.1.map (.write f), r.2)

/-- internal/iio/wrappers.go:13-18, 22-27: a single call of `Write`, which must write everything. -/
def fWriteOnce (r : WriteRet) (f : String) (buf : List UInt8) : Prog Unit := fun _ =>
  let n := min r.n buf.length
  ([.write f (buf.take n)], if r.err then .panic else if n ≠ buf.length then .panic else .ok ())

/-- internal/iio/wrappers.go:97-101: `FRead` returns `n` of the bytes that are left (up to the length of the buffer `cap`;
at least one if there is one), then they are written. -/
def fCopy (env : Nat → WriteRet) (want cap : Nat) (dst src : String) : Prog Nat := do
  let rest ← Prog.rest src
  let n := min (max 1 want) (min rest.length cap)
  Prog.emit (.advance src n)
  fWrite env dst (rest.take n)
  .pure n

/-- internal/iio/wrappers.go:82-95 as a program: one write of the whole buffer (C64 proves that this is
what `fWrite` amounts to; a crash in the middle is covered by `CrashState`). -/
def FWrite (f : String) (bs : List UInt8) : Prog Unit := .emit (.write f bs)

/-- internal/iio/wrappers.go:44-50, 97-101 (`FCopy`), in the loop of nodeindexer_writer.go:54-63 and
wayindexer_writer.go:59-70: until it returns 0, or until cancelled. `sched k` is how much the k-th `Read`
is willing to return (at least one byte if any is left, at most the 1 MiB buffer), `cancelled k` what the
k-th check of the context says. -/
def copyLoop (dst src : String) (sched : Nat → Nat) (cancelled : Nat → Bool) :
    Nat → Nat → Prog Unit
  | 0, _ => .lift .hang
  | fuel + 1, k =>
    if cancelled k then .pure ()
    else do
      let rest ← Prog.rest src
      let n := min (max 1 (sched k)) (min rest.length 1048576)
      Prog.emit (.advance src n)
      FWrite dst (rest.take n)
      if n = 0 then .pure () else copyLoop dst src sched cancelled fuel (k + 1)

/-- The loop with enough iterations for the whole file. -/
def copyAll (dst src : String) (sched : Nat → Nat) (cancelled : Nat → Bool) : Prog Unit := do
  let rest ← Prog.rest src
  copyLoop dst src sched cancelled (rest.length + 1) 0

end Osm
