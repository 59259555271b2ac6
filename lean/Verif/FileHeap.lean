import Verif.File
import Verif.HeapModel

/-!
# `bwt_file` with memory and crash points

The same program as `bwtFile` (`File.lean`), with every request and release of memory explicit (`HeapBase.lean`), and with
the history of the file system: what a crash of the machine at any moment would leave.
-/

namespace Flbwt

/-- The state: files, open streams, the heap, and all states of the file system since the beginning (the newest first).
Simplification: bytes accepted by `fwrite` reach the file at once; a crash with bytes in the buffer of the stream leaves a
state that also occurs earlier in the history. src/flbwt.cpp:27-108. -/
structure FHState where
  files : String → Option (List Nat)
  streams : Nat
  heap : Heap
  hist : List (String → Option (List Nat))

/-- A computation with files and a heap: a fault or an exception does not undo what was done before.
Infrastructure: models no code. -/
def FH (α : Type) : Type := FHState → Except HErr α × FHState

namespace FH
/-- sequencing. Infrastructure: models no code. -/
def bind {α β : Type} (m : FH α) (f : α → FH β) : FH β := fun s =>
  match m s with
  | (.ok a, s') => f a s'
  | (.error e, s') => (.error e, s')
/-- Infrastructure: models no code. -/
instance : Monad FH where
  pure a := fun s => (.ok a, s)
  bind := bind
/-- exceptions and faults. `throw`, src/flbwt.cpp:35, 46, 50, 66. -/
def fail {α : Type} (e : Err) : FH α := fun s => (.error (.prog e), s)
/-- a computation without files and memory. Infrastructure: models no code. -/
def lift {α : Type} (m : M α) : FH α := fun s =>
  match m with
  | .ok a => (.ok a, s)
  | .error e => (.error (.prog e), s)
/-- a computation that uses memory but no files. Infrastructure: models no code. -/
def liftH {α : Type} (m : H α) : FH α := fun s =>
  match m s.heap with
  | (r, h') => (r, { s with heap := h' })
/-- `fclose`; closing when no stream is open is the fault `badFree`. src/flbwt.cpp:45, 51, 99. -/
def close : FH Unit := fun s =>
  if 1 ≤ s.streams then (.ok (), { s with streams := s.streams - 1 }) else (.error .badFree, s)
/-- `fopen(name, "r")`; the stream is represented by the contents of the file. src/flbwt.cpp:30. -/
def openR (h : Host) (name : String) : FH (Option (List Nat)) := fun s =>
  match s.files name with
  | some c => if h.mayRead name then (.ok (some c), { s with streams := s.streams + 1 }) else (.ok none, s)
  | none => (.ok none, s)
/-- the files with the contents of one replaced. Infrastructure: models no code. -/
def setFile (files : String → Option (List Nat)) (name : String) (c : List Nat) : String → Option (List Nat) :=
  fun f => if f = name then some c else files f
/-- `fopen(name, "wb")`: creates or truncates. src/flbwt.cpp:63. -/
def openW (h : Host) (name : String) : FH Bool := fun s =>
  if h.mayWrite name then
    (.ok true, { s with files := setFile s.files name [], streams := s.streams + 1, hist := setFile s.files name [] :: s.hist })
  else (.ok false, s)
/-- `fwrite` of a list of bytes: the file gets the bytes the host accepts, one after the other; the result is ignored by the
code. src/flbwt.cpp:80, 86, 90, 94-95. -/
def write (h : Host) (name : String) (bytes : List Nat) : FH Unit := fun s =>
  let old := (s.files name).getD []
  let k := min (h.accept old.length bytes.length) bytes.length
  (.ok (), { s with files := setFile s.files name (old ++ bytes.take k)
                    hist := ((List.range (k + 1)).map fun j => setFile s.files name (old ++ bytes.take (k - j))) ++ s.hist })
end FH

open FH

/-- `uint8_t *rank = new uint8_t[8]` (src/flbwt.cpp:70) -/
abbrev rankBlk : Blk := ⟨.rank, 8⟩

/-- src/flbwt.cpp:84-96, as `writeRows` -/
def writeRowsH (h : Host) (name : String) (n : Nat) (r : BwtResult) : FH Unit :=
  if r.last = 0 then do
    let x ← FH.lift (slice r.bwt 1 n)
    FH.write h name x
  else if r.last = n then do
    let x ← FH.lift (slice r.bwt 0 n)
    FH.write h name x
  else do
    let x ← FH.lift (slice r.bwt 0 r.last)
    FH.write h name x
    let y ← FH.lift (slice r.bwt (r.last + 1) ((2 ^ 64 + n - r.last) % 2 ^ 64))
    FH.write h name y

/-- src/flbwt.cpp:61-107: opening and writing the output, releasing the result. The array `BWT` has `n + 1` bytes. -/
def writeResultH (h : Host) (output : String) (n : Nat) (b : Option BwtResult) : FH Unit := do
  let o ← FH.openW h output
  if o then
    match b with
    | some r => do
      liftH (newB .arr rankBlk)
      FH.write h output (rankBytes r.last)
      liftH (freeB .arr rankBlk)
      writeRowsH h output n r
      FH.close
      liftH (releaseResultH n)
    | none => FH.close
  else FH.fail (.throw .invalidArgument)

/-- `bwt_file` (src/flbwt.cpp:27-108). The field `mallocOk` of the host is not used: the schedule of the heap decides. -/
def bwtFileH (w : World) (h : Host) (input output : String) : FH Unit := do
  let c ← FH.openR h input
  match c with
  | none => FH.fail (.throw .invalidArgument)
  | some content =>
    let n := (h.tell content % 2 ^ 64).toNat
    let p ← liftH (mallocB ⟨.text, (n + 1) % 2 ^ 64⟩)
    if p then do
      let T ← FH.lift (freadBlock h ((n + 1) % 2 ^ 64) (delivered h content n))
      if (delivered h content n).length = 0 then FH.fail (.throw .runtimeError)
      else do
        FH.close
        let T ← FH.lift (T.wr n 0)
        let r ← liftH (bwtStringH w (some T) n true)
        writeResultH h output n r.1
    else do
      FH.close
      FH.fail (.throw .runtimeError)

end Flbwt
