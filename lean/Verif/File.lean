import Verif.Bwt

/-!
# Model of `bwt_file` (src/flbwt.cpp:27-108) and of the example program (examples/bwt.cpp)

The file system is a function from names to contents; everything the C library may answer (open failures, the value of
`ftell`, allocation failure, short reads, short writes) is a parameter, so the theorems hold for all answers.
-/

namespace Flbwt

/-- Answers of the C library and of the operating system. The library calls in src/flbwt.cpp:27-108. -/
structure Host where
  /-- `fopen(name, "r")` is allowed (it fails also when the file does not exist) -/
  mayRead : String → Bool
  /-- `fopen(name, "wb")` is allowed -/
  mayWrite : String → Bool
  /-- value of `ftell` after `fseek(fp, 0, SEEK_END)`, depending on the contents of the file; -1 for a pipe -/
  tell : List Nat → Int
  /-- `malloc` of the given size succeeds -/
  mallocOk : Nat → Bool
  /-- the number of bytes `fread` delivers at most -/
  readMax : Nat
  /-- contents of a fresh block -/
  fresh : Nat → Nat
  /-- `fwrite` accepts so many bytes: length of the file so far, number of bytes offered -/
  accept : Nat → Nat → Nat

/-- What is observable from outside: the files, the number of open streams and the number of live heap blocks owned by
`bwt_file` (the text, the result record, the array in it). src/flbwt.cpp:27-108. -/
structure FState where
  files : String → Option (List Nat)
  streams : Nat
  blocks : Nat

/-- A computation with files: a fault or an exception does not undo what was done before. Infrastructure: models no code. -/
def FileM (α : Type) : Type := FState → M α × FState

namespace FileM
/-- sequencing. Infrastructure: models no code. -/
def bind {α β : Type} (m : FileM α) (f : α → FileM β) : FileM β := fun s =>
  match m s with
  | (.ok a, s') => f a s'
  | (.error e, s') => (.error e, s')
/-- Infrastructure: models no code. -/
instance : Monad FileM where
  pure a := fun s => (.ok a, s)
  bind := bind
/-- exceptions and faults. `throw`, src/flbwt.cpp:35, 46, 50, 66. -/
def fail {α : Type} (e : Err) : FileM α := fun s => (.error e, s)
/-- a computation without files. Infrastructure: models no code. -/
def lift {α : Type} (m : M α) : FileM α := fun s => (m, s)
/-- `malloc`/`new`. src/flbwt.cpp:41, 71. -/
def alloc (k : Nat) : FileM Unit := fun s => (.ok (), { s with blocks := s.blocks + k })
/-- `free`/`delete[]`; releasing more blocks than there are is the fault `badFree`. src/flbwt.cpp:81, 105-106. -/
def dealloc (k : Nat) : FileM Unit := fun s =>
  if k ≤ s.blocks then (.ok (), { s with blocks := s.blocks - k }) else (.error (.ub .badFree), s)
/-- `fclose`; closing when no stream is open is the fault `badFree`. src/flbwt.cpp:45, 51, 99. -/
def close : FileM Unit := fun s =>
  if 1 ≤ s.streams then (.ok (), { s with streams := s.streams - 1 }) else (.error (.ub .badFree), s)
/-- `fopen(name, "r")`; the stream is represented by the contents of the file. src/flbwt.cpp:30. -/
def openR (h : Host) (name : String) : FileM (Option (List Nat)) := fun s =>
  match s.files name with
  | some c => if h.mayRead name then (.ok (some c), { s with streams := s.streams + 1 }) else (.ok none, s)
  | none => (.ok none, s)
/-- `fopen(name, "wb")`: creates or truncates. src/flbwt.cpp:63. -/
def openW (h : Host) (name : String) : FileM Bool := fun s =>
  if h.mayWrite name then
    (.ok true, { s with files := fun f => if f = name then some [] else s.files f, streams := s.streams + 1 })
  else (.ok false, s)
/-- `fwrite` of a list of bytes: the file gets the bytes the host accepts; the result is ignored by the code.
src/flbwt.cpp:80, 86, 90, 94-95. -/
def write (h : Host) (name : String) (bytes : List Nat) : FileM Unit := fun s =>
  let old := (s.files name).getD []
  (.ok (), { s with files := fun f => if f = name then some (old ++ bytes.take (h.accept old.length bytes.length)) else s.files f })
end FileM

open FileM

/-- the bytes `fread` delivers (src/flbwt.cpp:49) -/
def delivered (h : Host) (content : List Nat) (n : Nat) : List Nat := (content.take n).take h.readMax

/-- The block after `fread` (src/flbwt.cpp:41, 49): `malloc(n + 1)` with the delivered bytes stored from the start. -/
def freadBlock (h : Host) (size : Nat) (got : List Nat) : M (Mem Nat) :=
  if got.length ≤ size then .ok ⟨size, fun i => if i < got.length then got.getD i 0 else h.fresh i % 256⟩
  else .error (.ub .outOfBounds)

/-- `T[n] = '\0'` and the transform (src/flbwt.cpp:54, 58) -/
def transform (w : World) (T : Mem Nat) (n : Nat) : M (Option BwtResult) := do
  let T ← T.wr n 0
  let r ← bwtString w (some T) n true
  .ok r.1

/-- `rank[i]` (src/flbwt.cpp:71-80): masks and shifts on 64 bit words, the assignment keeps 8 bits -/
def rankBytes (last : Nat) : List Nat :=
  let l : BitVec 64 := BitVec.ofNat 64 last
  [((0xff00000000000000#64 &&& l) >>> 56).toNat % 256, ((0x00ff000000000000#64 &&& l) >>> 48).toNat % 256,
   ((0x0000ff0000000000#64 &&& l) >>> 40).toNat % 256, ((0x000000ff00000000#64 &&& l) >>> 32).toNat % 256,
   ((0x00000000ff000000#64 &&& l) >>> 24).toNat % 256, ((0x0000000000ff0000#64 &&& l) >>> 16).toNat % 256,
   ((0x000000000000ff00#64 &&& l) >>> 8).toNat % 256, (0x00000000000000ff#64 &&& l).toNat % 256]

/-- the bytes `b[off] … b[off+cnt-1]` handed to `fwrite`. src/flbwt.cpp:86, 90, 94-95. -/
def slice (b : Mem Nat) (off cnt : Nat) : M (List Nat) :=
  (List.range cnt).mapM fun i => b.rd (off + i)

/-- src/flbwt.cpp:84-96: the three cases of writing the transform without row `last`; `n - last` is computed in 64 bits -/
def writeRows (h : Host) (name : String) (n : Nat) (r : BwtResult) : FileM Unit :=
  if r.last = 0 then do
    let x ← lift (slice r.bwt 1 n)
    write h name x
  else if r.last = n then do
    let x ← lift (slice r.bwt 0 n)
    write h name x
  else do
    let x ← lift (slice r.bwt 0 r.last)
    write h name x
    let y ← lift (slice r.bwt (r.last + 1) ((2 ^ 64 + n - r.last) % 2 ^ 64))
    write h name y

/-- src/flbwt.cpp:61-107: opening and writing the output, releasing the result -/
def writeResult (h : Host) (output : String) (n : Nat) (b : Option BwtResult) : FileM Unit := do
  let o ← openW h output
  if o then
    match b with
    | some r => do
      write h output (rankBytes r.last)
      writeRows h output n r
      close
      dealloc 2
    | none => close
  else fail (.throw .invalidArgument)

/-- `bwt_file` (src/flbwt.cpp:27-108). `ftell` returns a `long` that is converted to `uint64_t`; `n + 1` is computed in 64
bits. `bwt_string` releases the text and allocates the result (array and record). Streams and blocks that an exception
leaves behind stay counted. -/
def bwtFile (w : World) (h : Host) (input output : String) : FileM Unit := do
  let c ← openR h input
  match c with
  | none => fail (.throw .invalidArgument)
  | some content =>
    let n := (h.tell content % 2 ^ 64).toNat
    if h.mallocOk ((n + 1) % 2 ^ 64) then do
      alloc 1
      let T ← lift (freadBlock h ((n + 1) % 2 ^ 64) (delivered h content n))
      if (delivered h content n).length = 0 then fail (.throw .runtimeError)
      else do
        close
        let b ← lift (transform w T n)
        dealloc 1
        if b.isSome then alloc 2 else alloc 0
        writeResult h output n b
    else do
      close
      fail (.throw .runtimeError)

/-- `main` of examples/bwt.cpp:5-19: the exit status; an exception leaves `main` (the program is terminated). -/
def exampleMain (w : World) (h : Host) (argv : List String) : FileM Int :=
  match argv with
  | [_, input, output] => do
    bwtFile w h input output
    pure 0
  | _ => pure (-1)

end Flbwt
