import Verif.PropsFile
import Mathlib.Logic.Function.Basic

/-!
# `bwt_file` as a sequence of file system actions

`bwtFileC` is `bwt_file` (src/flbwt.cpp:27-108) with every action on the file system visible: opening, `ftell`, every byte
read, every byte written (at the position of its stream), and the request for the text buffer. `bwtFileC_run` shows that, alone, it
does what `bwtFile` says. `FAct` is a machine in which any number of such calls are interleaved with each other and with other
programs. Streams are represented by the name of the file; buffering of the C library (which only delays the writes) is not
modelled.
-/

namespace Flbwt

/-- A program as a tree of file system actions. The library calls in src/flbwt.cpp:27-108. -/
inductive FTh : Type where
  | done (r : M Unit)
  | openR (name : String) (k : Bool → FTh)
  | size (name : String) (k : Int → FTh)
  | malloc (bytes : Nat) (k : Bool → FTh)
  | get (name : String) (pos : Nat) (k : Option Nat → FTh)
  | openW (name : String) (k : Bool → FTh)
  | put (name : String) (pos : Nat) (b : Nat) (k : FTh)

/-- `fread` of `n` bytes (src/flbwt.cpp:49), byte by byte, until the end of the file -/
def fget (name : String) : Nat → Nat → List Nat → (List Nat → FTh) → FTh
  | 0, _, acc, k => k acc
  | n + 1, pos, acc, k => .get name pos fun o =>
      match o with
      | none => k acc
      | some b => fget name n (pos + 1) (acc ++ [b]) k

/-- `fwrite` (src/flbwt.cpp:81-96), byte by byte -/
def fput (name : String) : Nat → List Nat → FTh → FTh
  | _, [], k => k
  | pos, b :: l, k => .put name pos b (fput name (pos + 1) l k)

/-- a computation between two actions. Infrastructure: models no code. -/
def orFail {α : Type} (m : M α) (k : α → FTh) : FTh :=
  match m with
  | .ok a => k a
  | .error e => .done (.error e)

/-- src/flbwt.cpp:84-96, as `writeRows` -/
def rowsC (output : String) (pos n : Nat) (r : BwtResult) : FTh :=
  if r.last = 0 then orFail (slice r.bwt 1 n) fun x => fput output pos x (.done (.ok ()))
  else if r.last = n then orFail (slice r.bwt 0 n) fun x => fput output pos x (.done (.ok ()))
  else orFail (slice r.bwt 0 r.last) fun x => fput output pos x <|
    orFail (slice r.bwt (r.last + 1) ((2 ^ 64 + n - r.last) % 2 ^ 64)) fun y =>
      fput output (pos + x.length) y (.done (.ok ()))

/-- src/flbwt.cpp:61-107, as `writeResult` -/
def resultC (output : String) (n : Nat) (b : Option BwtResult) : FTh :=
  .openW output fun ok =>
    if ok then
      match b with
      | some r => fput output 0 (rankBytes r.last) (rowsC output 8 n r)
      | none => .done (.ok ())
    else .done (.error (.throw .invalidArgument))

/-- src/flbwt.cpp:49-58: what follows `fread` -/
def afterRead (w : World) (h : Host) (output : String) (n : Nat) (got : List Nat) : FTh :=
  orFail (freadBlock h ((n + 1) % 2 ^ 64) got) fun T =>
    if got.length = 0 then .done (.error (.throw .runtimeError))
    else orFail (transform w T n) fun b => resultC output n b

/-- `bwt_file` (src/flbwt.cpp:27-108); of the host only the contents of fresh memory are used here -/
def bwtFileC (w : World) (h : Host) (input output : String) : FTh :=
  .openR input fun ok =>
    if ok then .size input fun t =>
      .malloc (((t % 2 ^ 64).toNat + 1) % 2 ^ 64) fun ok =>
        if ok then fget input (t % 2 ^ 64).toNat 0 [] (afterRead w h output (t % 2 ^ 64).toNat)
        else .done (.error (.throw .runtimeError))
    else .done (.error (.throw .invalidArgument))

/-! ## Alone -/

/-- the contents after storing `b` at position `pos`. `fwrite`, src/flbwt.cpp:80, 86, 90, 94-95. -/
def putAt (c : List Nat) (pos b : Nat) : List Nat :=
  if pos < c.length then c.set pos b else c ++ List.replicate (pos - c.length) 0 ++ [b]

/-- The file system. Infrastructure: models no code. -/
abbrev Files := String → Option (List Nat)

/-- one file replaced. Infrastructure: models no code. -/
def Files.set (f : Files) (name : String) (c : List Nat) : Files := fun x => if x = name then some c else f x

/-- The program alone, with the answers of the host. Infrastructure: models no code. -/
def FTh.run (h : Host) : FTh → Files → M Unit × Files
  | .done r, f => (r, f)
  | .openR name k, f =>
    match f name with
    | some _ => (k (h.mayRead name)).run h f
    | none => (k false).run h f
  | .size name k, f => (k (h.tell ((f name).getD []))).run h f
  | .malloc bytes k, f => (k (h.mallocOk bytes)).run h f
  | .get name pos k, f => (k (((f name).getD []).take h.readMax)[pos]?).run h f
  | .openW name k, f => if h.mayWrite name then (k true).run h (f.set name []) else (k false).run h f
  | .put name pos b k, f => k.run h (f.set name (putAt ((f name).getD []) pos b))

theorem Files.set_set (f : Files) (name : String) (c d : List Nat) : (f.set name c).set name d = f.set name d := by
  funext x
  by_cases h : x = name <;> simp [Files.set, h]

theorem Files.set_at (f : Files) (name : String) (c : List Nat) : f.set name c name = some c := by simp [Files.set]

theorem Files.set_ne (f : Files) {name x : String} (c : List Nat) (h : x ≠ name) : f.set name c x = f x := by
  simp [Files.set, h]

theorem putAt_end (c : List Nat) (b : Nat) : putAt c c.length b = c ++ [b] := by
  simp [putAt]

/-- What `putAt` does, cell by cell: POSIX fills a hole with zeros. -/
theorem putAt_spec (c : List Nat) (pos b i : Nat) : (putAt c pos b)[i]? =
    if i = pos then some b else if i < c.length then c[i]? else if i < pos then some 0 else none := by
  unfold putAt
  by_cases h1 : pos < c.length
  · rw [if_pos h1, List.getElem?_set]
    by_cases h2 : pos = i
    · subst h2; simp [h1]
    · have h3 : ¬ i = pos := fun h => h2 h.symm
      rw [if_neg h2, if_neg h3]
      by_cases h4 : i < c.length
      · rw [if_pos h4]
      · rw [if_neg h4, if_neg (by omega), List.getElem?_eq_none (by omega)]
  · rw [if_neg h1]
    by_cases h4 : i < c.length
    · rw [if_neg (by omega), if_pos h4, List.getElem?_append_left (by simp; omega), List.getElem?_append_left h4]
    · by_cases h5 : i < pos
      · rw [if_neg (by omega), if_neg h4, if_pos h5, List.getElem?_append_left (by simp; omega),
          List.getElem?_append_right (by omega), List.getElem?_replicate, if_pos (by omega)]
      · by_cases h6 : i = pos
        · rw [if_pos h6, List.getElem?_append_right (by simp; omega)]
          have : i - (c ++ List.replicate (pos - c.length) 0).length = 0 := by simp; omega
          rw [this]; rfl
        · rw [if_neg h6, if_neg h4, if_neg h5, List.getElem?_eq_none (by simp; omega)]

theorem fput_run (h : Host) (name : String) (k : FTh) (f : Files) : ∀ (l c : List Nat),
    (fput name c.length l k).run h (f.set name c) = k.run h (f.set name (c ++ l))
  | [], c => by simp [fput]
  | b :: l, c => by
    rw [fput, FTh.run, Files.set_at, Option.getD_some, putAt_end, Files.set_set]
    have := fput_run h name k f l (c ++ [b])
    simpa using this

theorem fget_run (h : Host) (name : String) (k : List Nat → FTh) (f : Files) (c : List Nat) (hf : f name = some c) :
    ∀ (n : Nat) (acc : List Nat), acc = (c.take h.readMax).take acc.length →
    (fget name n acc.length acc k).run h f = (k ((c.take h.readMax).take (acc.length + n))).run h f
  | 0, acc, ha => by rw [fget, Nat.add_zero, ← ha]
  | n + 1, acc, ha => by
    rw [fget, FTh.run, hf, Option.getD_some]
    cases e : (c.take h.readMax)[acc.length]? with
    | none =>
      have hl : (c.take h.readMax).length ≤ acc.length := by rw [List.getElem?_eq_none_iff] at e; exact e
      have : acc = (c.take h.readMax).take (acc.length + (n + 1)) := by
        rw [List.take_of_length_le (by omega)]
        rw [List.take_of_length_le hl] at ha
        exact ha
      simp only
      rw [← this]
    | some b =>
      have ha' : acc ++ [b] = (c.take h.readMax).take (acc ++ [b]).length := by
        rw [List.length_append, List.length_singleton, List.take_add_one, ← ha, e]
        rfl
      have := fget_run h name k f c hf n (acc ++ [b]) ha'
      simp only [List.length_append, List.length_singleton] at this
      rw [show acc.length + (n + 1) = acc.length + 1 + n by omega]
      exact this

theorem write_files {h : Host} (ha : TakesAll h) (name : String) (x : List Nat) (s : FState) :
    FileM.write h name x s = (.ok (), { s with files := Files.set s.files name ((s.files name).getD [] ++ x) }) := by
  unfold FileM.write
  simp only [List.take_of_length_le (ha _ _)]
  rfl

theorem lift_err {α : Type} (e : Err) (s : FState) : FileM.lift (.error e : M α) s = (.error e, s) := rfl
theorem lift_ok {α : Type} (a : α) (s : FState) : FileM.lift (.ok a : M α) s = (.ok a, s) := rfl

theorem rowsC_run (h : Host) (ha : TakesAll h) (output : String) (n : Nat) (r : BwtResult) (s : FState) (c : List Nat)
    (hc : s.files output = some c) :
    (rowsC output c.length n r).run h s.files = ((writeRows h output n r s).1, (writeRows h output n r s).2.files) ∧
    (writeRows h output n r s).2.streams = s.streams ∧ (writeRows h output n r s).2.blocks = s.blocks := by
  have put : ∀ (x : List Nat) (k : FTh), (fput output c.length x k).run h s.files =
      k.run h (Files.set s.files output (c ++ x)) := by
    intro x k
    have e : s.files = Files.set s.files output c := by
      funext y
      by_cases hy : y = output
      · rw [hy, Files.set_at, hc]
      · rw [Files.set_ne _ _ hy]
    rw [e, fput_run, Files.set_set]
  unfold rowsC writeRows
  split
  · cases slice r.bwt 1 n with
    | error e => rw [run_err (lift_err _ _)]; exact ⟨rfl, rfl, rfl⟩
    | ok x => rw [run_ok (lift_ok _ _), write_files ha, hc]; exact ⟨put _ _, rfl, rfl⟩
  · split
    · cases slice r.bwt 0 n with
      | error e => rw [run_err (lift_err _ _)]; exact ⟨rfl, rfl, rfl⟩
      | ok x => rw [run_ok (lift_ok _ _), write_files ha, hc]; exact ⟨put _ _, rfl, rfl⟩
    · cases slice r.bwt 0 r.last with
      | error e => rw [run_err (lift_err _ _)]; exact ⟨rfl, rfl, rfl⟩
      | ok x =>
        rw [run_ok (lift_ok _ _), run_ok (write_files ha _ _ _), hc]
        simp only [orFail, put]
        cases slice r.bwt (r.last + 1) ((2 ^ 64 + n - r.last) % 2 ^ 64) with
        | error e => rw [run_err (lift_err _ _)]; exact ⟨rfl, rfl, rfl⟩
        | ok y =>
          rw [run_ok (lift_ok _ _), write_files ha]
          refine ⟨?_, rfl, rfl⟩
          have := fput_run h output (.done (.ok ())) s.files y (c ++ x)
          rw [List.length_append] at this
          simp only [Option.getD_some, Files.set_at, Files.set_set]
          exact this

theorem resultC_run (h : Host) (ha : TakesAll h) (output : String) (n : Nat) (b : Option BwtResult) (s : FState)
    (hb : b.isSome = true → 2 ≤ s.blocks) :
    (resultC output n b).run h s.files = ((writeResult h output n b s).1, (writeResult h output n b s).2.files) := by
  unfold resultC writeResult
  rw [FTh.run]
  by_cases hw : h.mayWrite output = true
  · rw [if_pos hw, run_ok (a := true) (s' := s.created output) (by unfold FileM.openW; rw [if_pos hw]; rfl)]
    simp only [if_true]
    cases b with
    | none => rfl
    | some r =>
      simp only
      rw [run_ok (write_files ha _ _ _)]
      have e1 := fput_run h output (rowsC output 8 n r) s.files (rankBytes r.last) []
      rw [List.length_nil, List.nil_append] at e1
      rw [e1]
      obtain ⟨h1, h2, h3⟩ := rowsC_run h ha output n r
        { s.created output with files := Files.set (s.created output).files output (((s.created output).files output).getD [] ++ rankBytes r.last) }
        (rankBytes r.last) (by simp [Files.set_at, FState.created])
      have e2 : Files.set (s.created output).files output (((s.created output).files output).getD [] ++ rankBytes r.last) =
          Files.set s.files output (rankBytes r.last) := by
        have : (s.created output).files = Files.set s.files output [] := rfl
        rw [this, Files.set_set, Files.set_at]
        rfl
      rw [e2] at h1 h2 h3 ⊢
      have e3 : (rankBytes r.last).length = 8 := rfl
      rw [e3] at h1
      rw [h1]
      generalize ew : writeRows h output n r _ = x at h2 h3 ⊢
      obtain ⟨rr, s2⟩ := x
      cases rr with
      | error e => rw [run_err ew]
      | ok u =>
        rw [run_ok ew]
        simp only at h2 h3
        rw [run_ok (m := FileM.close) (a := ()) (s' := { s2 with streams := s2.streams - 1 })
          (by unfold FileM.close; rw [if_pos (by rw [h2]; exact Nat.le_add_left 1 _)])]
        unfold FileM.dealloc
        rw [if_pos (by show 2 ≤ s2.blocks; rw [h3]; exact hb rfl)]
  · rw [if_neg hw, run_ok (a := false) (s' := s) (by unfold FileM.openW; rw [if_neg hw])]
    rfl

/-- Alone, on a host that takes every byte written, the sequence of actions does what `bwtFile` does. -/
theorem bwtFileC_run (w : World) (h : Host) (ha : TakesAll h) (input output : String) (s : FState) :
    (bwtFileC w h input output).run h s.files = ((bwtFile w h input output s).1, (bwtFile w h input output s).2.files) := by
  unfold bwtFileC bwtFile
  rw [FTh.run]
  cases hf : s.files input with
  | none =>
    rw [run_ok (a := none) (s' := s) (by unfold FileM.openR; rw [hf])]
    rfl
  | some c =>
    simp only
    by_cases hr : h.mayRead input = true
    · rw [hr, run_ok (a := some c) (s' := { s with streams := s.streams + 1 }) (by unfold FileM.openR; rw [hf]; simp [hr])]
      simp only [if_true, FTh.run, hf, Option.getD_some]
      generalize (h.tell c % 2 ^ 64).toNat = n
      cases hm : h.mallocOk ((n + 1) % 2 ^ 64) with
      | false => rfl
      | true =>
        simp only [if_true]
        have eg := fget_run h input (afterRead w h output n) s.files c hf n [] (by simp)
        rw [List.length_nil, Nat.zero_add] at eg
        have ed : (c.take h.readMax).take n = delivered h c n := by
          unfold delivered; rw [List.take_take, List.take_take, Nat.min_comm]
        rw [eg, ed, run_ok (m := FileM.alloc 1) rfl]
        unfold afterRead
        cases freadBlock h ((n + 1) % 2 ^ 64) (delivered h c n) with
        | error e => rw [run_err (lift_err _ _)]; rfl
        | ok T =>
          rw [run_ok (lift_ok _ _)]
          simp only [orFail]
          split
          · rfl
          · rw [run_ok (m := FileM.close) rfl]
            cases transform w T n with
            | error e => rw [run_err (lift_err _ _)]; rfl
            | ok b =>
              rw [run_ok (lift_ok _ _), run_ok (m := FileM.dealloc 1) rfl]
              cases b with
              | none =>
                rw [if_neg (by simp), run_ok (m := FileM.alloc 0) rfl, ← resultC_run h ha output n none _ (by simp)]
              | some r =>
                rw [if_pos (by simp), run_ok (m := FileM.alloc 2) rfl, ← resultC_run h ha output n (some r) _ (fun _ => Nat.le_add_left 2 _)]
    · rw [run_ok (a := none) (s' := s) (by unfold FileM.openR; rw [hf]; simp [hr])]
      simp only [hr]
      rfl

end Flbwt
