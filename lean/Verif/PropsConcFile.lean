import Verif.ConcFile

/-!
# Property C68: several programs or threads call `bwt_file` at the same time

A step is one action of one call (`FStep`) or something that other programs do to other files, in any order. Whether a file
can be opened and whether memory is there is decided by the host at every request, arbitrarily. Reads and writes do not fail
(C39 and C40 say what happens if they do).
-/

namespace Flbwt

/-- One call `bwt_file(input, output)`, with its uninitialised memory, and the contents of its input file at the beginning. -/
structure Job where
  w : World
  h : Host
  input : String
  output : String
  content : List Nat

/-- The program of a call. -/
def Job.prog (j : Job) : FTh := bwtFileC j.w j.h j.input j.output

/-- One action: the program and the files before, the program and the files after, and 1 if the host refused something. -/
inductive FStep : FTh → Files → FTh → Files → Nat → Prop
  | openR (name : String) (k : Bool → FTh) (f : Files) : f name ≠ none → FStep (.openR name k) f (k true) f 0
  | notR (name : String) (k : Bool → FTh) (f : Files) : FStep (.openR name k) f (k false) f 1
  | size (name : String) (k : Int → FTh) (f : Files) : FStep (.size name k) f (k ((f name).getD []).length) f 0
  | malloc (bytes : Nat) (k : Bool → FTh) (f : Files) : FStep (.malloc bytes k) f (k true) f 0
  | noMem (bytes : Nat) (k : Bool → FTh) (f : Files) : FStep (.malloc bytes k) f (k false) f 1
  | get (name : String) (pos : Nat) (k : Option Nat → FTh) (f : Files) :
      FStep (.get name pos k) f (k ((f name).getD [])[pos]?) f 0
  | openW (name : String) (k : Bool → FTh) (f : Files) : FStep (.openW name k) f (k true) (f.set name []) 0
  | notW (name : String) (k : Bool → FTh) (f : Files) : FStep (.openW name k) f (k false) f 1
  | put (name : String) (pos b : Nat) (k : FTh) (f : Files) :
      FStep (.put name pos b k) f k (f.set name (putAt ((f name).getD []) pos b)) 0

/-- `k` calls under way: their programs, the files, how many requests each was refused, how many actions each has done. -/
structure FSys (k : Nat) where
  th : Fin k → FTh
  files : Files
  refused : Fin k → Nat
  steps : Fin k → Nat

variable {k : Nat}

/-- the state after an action of call `i` -/
def FSys.act (st : FSys k) (i : Fin k) (p : FTh) (f : Files) (r : Nat) : FSys k :=
  { th := Function.update st.th i p, files := f
    refused := Function.update st.refused i (st.refused i + r), steps := Function.update st.steps i (st.steps i + 1) }

/-- One step of the whole. -/
inductive FAct (js : Fin k → Job) : FSys k → FSys k → Prop
  | job (st : FSys k) (i : Fin k) (p : FTh) (f : Files) (r : Nat) : FStep (st.th i) st.files p f r →
      FAct js st (st.act i p f r)
  | others (st : FSys k) (f : Files) :
      (∀ i, f (js i).input = st.files (js i).input ∧ f (js i).output = st.files (js i).output) →
      FAct js st { st with files := f }

/-- All calls are about to begin. -/
def FSys.start (js : Fin k → Job) (f0 : Files) : FSys k :=
  { th := fun i => (js i).prog, files := f0, refused := fun _ => 0, steps := fun _ => 0 }

/-- `st` can be reached. -/
inductive FReach (js : Fin k → Job) (f0 : Files) : FSys k → Prop
  | start : FReach js f0 (.start js f0)
  | step (st st' : FSys k) : FReach js f0 st → FAct js st st' → FReach js f0 st'

/-- The input of the call is a file of at least 3 (and less than `2^57`) bytes; `realloc` works. -/
structure GoodJob (j : Job) (f0 : Files) : Prop where
  file : f0 j.input = some j.content
  len3 : 3 ≤ j.content.length
  len57 : j.content.length < 2 ^ 57
  byte : ∀ x ∈ j.content, x < 256
  sort : SortsOK j.w.sorter
  safe : LengthsSafe j.w.junk j.content
  room : enoughFor j.content.length ≤ j.w.junk.lim

/-- The output of a call is neither the output nor the input of another call. Inputs may be shared, and a call may work in
place. -/
def Apart (js : Fin k → Job) : Prop :=
  ∀ i j, i ≠ j → (js i).output ≠ (js j).output ∧ (js i).output ≠ (js j).input

/-! ## One call -/

theorem fput_append (name : String) (k : FTh) : ∀ (x : List Nat) (pos : Nat) (y : List Nat),
    fput name pos (x ++ y) k = fput name pos x (fput name (pos + x.length) y k)
  | [], pos, y => by simp [fput]
  | b :: x, pos, y => by
    rw [List.cons_append, fput, fput, fput_append name k x (pos + 1) y, List.length_cons,
      show pos + 1 + x.length = pos + (x.length + 1) by omega]

theorem rowsC_eq (output : String) (pos : Nat) {n : Nat} {r : BwtResult} (hn : n < 2 ^ 64) (hs : r.bwt.size = n + 1)
    (hl : r.last ≤ n) :
    rowsC output pos n r = fput output pos (rowsWithout n r.bwt.data r.last) (.done (.ok ())) := by
  unfold rowsC
  rw [rowsWithout_split _ hl]
  split
  · next h => rw [slice_ok (by omega), h]; simp [orFail]
  · split
    · next h => rw [slice_ok (by omega), h]; simp [orFail]
    · rw [slice_ok (by omega), show (2 ^ 64 + n - r.last) % 2 ^ 64 = n - r.last by omega, slice_ok (by omega), fput_append]
      simp [orFail]

theorem fread_full (h : Host) (c : List Nat) : ∃ T, freadBlock h (c.length + 1) c = .ok T ∧ T.size = c.length + 1 ∧
    ∀ (i : Nat) (hi : i < c.length), T.data i = c[i] := by
  unfold freadBlock
  rw [if_pos (by omega)]
  refine ⟨_, rfl, rfl, fun i hi => ?_⟩
  simp only
  rw [if_pos hi, getD_lt hi]

/-- After reading, the call only wants to open the output and to write the format of its input. -/
theorem afterRead_eq {j : Job} {f0 : Files} (g : GoodJob j f0) : ∃ bytes, FileFormat j.content bytes ∧
    afterRead j.w j.h j.output j.content.length j.content = .openW j.output fun ok =>
      if ok then fput j.output 0 bytes (.done (.ok ())) else .done (.error (.throw .invalidArgument)) := by
  have h3 := g.len3
  have h57 := g.len57
  obtain ⟨T, e1, hT, hd⟩ := fread_full j.h j.content
  obtain ⟨r, e2, h1, h2⟩ := transform_run j.w h3 h57 g.byte g.sort g.safe g.room hT hd
  have hlast := h2.last_lt
  refine ⟨_, ⟨_, _, h2, rfl⟩, ?_⟩
  unfold afterRead
  rw [Nat.mod_eq_of_lt (by omega)]
  rw [e1, orFail, if_neg (by omega), e2, orFail, resultC]
  congr 1
  funext ok
  rw [rowsC_eq _ _ (by omega) h1 (by omega), rankBytes_eq (by omega), fput_append, bigEndian8_length]

theorem FileFormat.length {s bytes : List Nat} (h : FileFormat s bytes) : bytes.length = s.length + 8 := by
  obtain ⟨b, last, h3, rfl⟩ := h
  have := h3.last_lt
  rw [List.length_append, bigEndian8_length, rowsWithout_length b (by omega)]
  omega

/-- How far a call is: `fi`, `fo` are its input and output file now, `o` the output at the beginning. -/
inductive Phase (j : Job) (o : Option (List Nat)) (bytes : List Nat) (p : FTh) (fi fo : Option (List Nat)) (ref steps : Nat) :
    Prop
  | start : p = j.prog → fi = some j.content → fo = o → ref = 0 → steps = 0 → Phase j o bytes p fi fo ref steps
  | sized : (p = .size j.input fun t => .malloc (((t % 2 ^ 64).toNat + 1) % 2 ^ 64) fun ok =>
        if ok then fget j.input (t % 2 ^ 64).toNat 0 [] (afterRead j.w j.h j.output (t % 2 ^ 64).toNat)
        else .done (.error (.throw .runtimeError))) → fi = some j.content → fo = o → ref = 0 → steps = 1 →
      Phase j o bytes p fi fo ref steps
  | malloc (m : Nat) : (p = .malloc m fun ok =>
        if ok then fget j.input j.content.length 0 [] (afterRead j.w j.h j.output j.content.length)
        else .done (.error (.throw .runtimeError))) → fi = some j.content → fo = o → ref = 0 → steps = 2 →
      Phase j o bytes p fi fo ref steps
  | reading (m : Nat) : m < j.content.length →
      p = fget j.input (j.content.length - m) m (j.content.take m) (afterRead j.w j.h j.output j.content.length) →
      fi = some j.content → fo = o → ref = 0 → steps = 3 + m → Phase j o bytes p fi fo ref steps
  | opening : (p = .openW j.output fun ok =>
        if ok then fput j.output 0 bytes (.done (.ok ())) else .done (.error (.throw .invalidArgument))) →
      fi = some j.content → fo = o → ref = 0 → steps = 3 + j.content.length → Phase j o bytes p fi fo ref steps
  | writing (m : Nat) : m ≤ bytes.length → p = fput j.output m (bytes.drop m) (.done (.ok ())) → fo = some (bytes.take m) →
      ref = 0 → steps = 4 + j.content.length + m → Phase j o bytes p fi fo ref steps
  | failed (x : Exc) : p = .done (.error (.throw x)) → x = .invalidArgument ∨ x = .runtimeError → fo = o → ref = 1 →
      steps ≤ 4 + j.content.length → Phase j o bytes p fi fo ref steps

/-- the format of the contents -/
def GoodBytes (j : Job) (bytes : List Nat) : Prop :=
  FileFormat j.content bytes ∧
    afterRead j.w j.h j.output j.content.length j.content = .openW j.output fun ok =>
      if ok then fput j.output 0 bytes (.done (.ok ())) else .done (.error (.throw .invalidArgument))

/-- An action of the call: it goes on in its phases and changes only its output. -/
theorem Phase.next {j : Job} {o : Option (List Nat)} {bytes : List Nat} {p p' : FTh} {f f' : Files} {ref steps r : Nat}
    (h3 : 3 ≤ j.content.length) (h57 : j.content.length < 2 ^ 57) (gb : GoodBytes j bytes)
    (h : Phase j o bytes p (f j.input) (f j.output) ref steps) (s : FStep p f p' f' r) :
    Phase j o bytes p' (f' j.input) (f' j.output) (ref + r) (steps + 1) ∧ ∀ x, x ≠ j.output → f' x = f x := by
  cases h with
  | start hp hi ho hr hs =>
    subst hp; subst hr; subst hs
    unfold Job.prog bwtFileC at s
    cases s with
    | openR _ _ _ _ => exact ⟨.sized (if_pos rfl) hi ho rfl rfl, fun _ _ => rfl⟩
    | notR _ _ _ => exact ⟨.failed .invalidArgument (if_neg (by simp)) (.inl rfl) ho rfl (by omega), fun _ _ => rfl⟩
  | sized hp hi ho hr hs =>
    subst hp; subst hr; subst hs
    cases s with
    | size _ _ _ =>
      refine ⟨.malloc ((j.content.length + 1) % 2 ^ 64) ?_ hi ho rfl rfl, fun _ _ => rfl⟩
      rw [hi, Option.getD_some]
      have e : (((j.content.length : Nat) : Int) % 2 ^ 64).toNat = j.content.length := by omega
      simp only [e]
  | malloc m hp hi ho hr hs =>
    subst hp; subst hr; subst hs
    cases s with
    | malloc _ _ _ => exact ⟨.reading 0 (by omega) (if_pos rfl) hi ho rfl rfl, fun _ _ => rfl⟩
    | noMem _ _ _ => exact ⟨.failed .runtimeError (if_neg (by simp)) (.inr rfl) ho rfl (by omega), fun _ _ => rfl⟩
  | reading m hm hp hi ho hr hs =>
    obtain ⟨d, hd⟩ : ∃ d, j.content.length - m = d + 1 := ⟨j.content.length - m - 1, by omega⟩
    rw [hd, fget] at hp
    subst hp; subst hr; subst hs
    cases s with
    | get _ _ _ _ =>
      refine ⟨?_, fun _ _ => rfl⟩
      have eg : ((f j.input).getD [])[m]? = some j.content[m] := by rw [hi, Option.getD_some, List.getElem?_eq_getElem hm]
      rw [eg]
      simp only
      have et : j.content.take m ++ [j.content[m]] = j.content.take (m + 1) := by rw [List.take_succ_eq_append_getElem hm]
      rw [et]
      by_cases hl : m + 1 = j.content.length
      · have : d = 0 := by omega
        subst this
        rw [fget, hl, List.take_length]
        rw [gb.2]
        exact .opening rfl hi ho rfl (by omega)
      · exact .reading (m + 1) (by omega) (by rw [show j.content.length - (m + 1) = d by omega]) hi ho rfl (by omega)
  | opening hp hi ho hr hs =>
    subst hp; subst hr; subst hs
    cases s with
    | openW _ _ _ =>
      refine ⟨.writing 0 (by omega) (by rw [List.drop_zero]; exact if_pos rfl) (by rw [Files.set_at, List.take_zero]) rfl (by omega), ?_⟩
      intro x hx; exact Files.set_ne _ _ hx
    | notW _ _ _ => exact ⟨.failed .invalidArgument (if_neg (by simp)) (.inl rfl) ho rfl (by omega), fun _ _ => rfl⟩
  | writing m hm hp ho hr hs =>
    subst hr; subst hs
    by_cases hl : m = bytes.length
    · rw [hl, List.drop_length, fput] at hp
      subst hp
      cases s
    · have hm' : m < bytes.length := by omega
      rw [List.drop_eq_getElem_cons hm', fput] at hp
      subst hp
      cases s with
      | put _ _ _ _ _ =>
        refine ⟨.writing (m + 1) (by omega) rfl ?_ rfl (by omega), ?_⟩
        · rw [Files.set_at, ho, Option.getD_some, List.take_succ_eq_append_getElem hm']
          have e : m = (bytes.take m).length := by rw [List.length_take]; omega
          have := putAt_end (bytes.take m) bytes[m]
          rw [← e] at this
          rw [this]
        · intro x hx; exact Files.set_ne _ _ hx
  | failed x hp hx ho hr hs =>
    subst hp
    cases s

theorem Phase.stay {j : Job} {o : Option (List Nat)} {bytes : List Nat} {p : FTh} {f f' : Files} {ref steps : Nat}
    (h : Phase j o bytes p (f j.input) (f j.output) ref steps) (h1 : f' j.input = f j.input) (h2 : f' j.output = f j.output) :
    Phase j o bytes p (f' j.input) (f' j.output) ref steps := by rw [h1, h2]; exact h

/-! ## All calls -/

section
variable {js : Fin k → Job} {f0 : Files} {st : FSys k}

theorem FReach.phase (g : ∀ i, GoodJob (js i) f0) (a : Apart js) (B : Fin k → List Nat) (gb : ∀ i, GoodBytes (js i) (B i))
    (r : FReach js f0 st) (i : Fin k) :
    Phase (js i) (f0 (js i).output) (B i) (st.th i) (st.files (js i).input) (st.files (js i).output) (st.refused i) (st.steps i) := by
  induction r generalizing i with
  | start => exact .start rfl (g i).file rfl rfl rfl
  | step st st' _ s ih =>
    cases s with
    | job j p f r s =>
      have h := (ih j).next (g j).len3 (g j).len57 (gb j) s
      by_cases hij : i = j
      · subst hij
        simpa [FSys.act] using h.1
      · have a1 := a j i (Ne.symm hij)
        simp only [FSys.act, Function.update_of_ne hij]
        exact (ih i).stay (h.2 _ (Ne.symm a1.2)) (h.2 _ (Ne.symm a1.1))
    | others f hf => exact (ih i).stay (hf i).1 (hf i).2

theorem FReach.phase' (g : ∀ i, GoodJob (js i) f0) (a : Apart js) (r : FReach js f0 st) (i : Fin k) :
    ∃ bytes, GoodBytes (js i) bytes ∧ Phase (js i) (f0 (js i).output) bytes (st.th i) (st.files (js i).input)
      (st.files (js i).output) (st.refused i) (st.steps i) :=
  ⟨_, Classical.choose_spec (afterRead_eq (g i)),
    r.phase g a (fun i => Classical.choose (afterRead_eq (g i))) (fun i => Classical.choose_spec (afterRead_eq (g i))) i⟩

theorem fput_not_err {name : String} {e : Err} : ∀ {l : List Nat} {pos : Nat},
    fput name pos l (.done (.ok ())) ≠ .done (.error e)
  | [], _ => by rw [fput]; intro h; injection h with h; cases h
  | _ :: _, _ => by rw [fput]; intro h; cases h

/-- **C68** however the actions of the calls and of other programs are interleaved: a call that has returned has left in its
output file the format of the contents its input had (which can be decoded from it) … -/
theorem C68_concurrent_files (g : ∀ i, GoodJob (js i) f0) (a : Apart js) (r : FReach js f0 st) (i : Fin k)
    (hd : st.th i = .done (.ok ())) :
    ∃ bytes, st.files (js i).output = some bytes ∧ FileFormat (js i).content bytes ∧ decodeFile bytes = (js i).content ∧
      st.refused i = 0 := by
  obtain ⟨bytes, gb, p⟩ := r.phase' g a i
  have h57 := (g i).len57
  have h3 := (g i).len3
  cases p with
  | start hp => rw [hd] at hp; cases hp
  | sized hp => rw [hd] at hp; cases hp
  | malloc m hp => rw [hd] at hp; cases hp
  | reading m hm hp =>
    obtain ⟨d, hd'⟩ : ∃ d, (js i).content.length - m = d + 1 := ⟨(js i).content.length - m - 1, by omega⟩
    rw [hd', fget, hd] at hp; cases hp
  | opening hp => rw [hd] at hp; cases hp
  | writing m hm hp ho hr hs =>
    by_cases hl : m = bytes.length
    · rw [hl, List.take_length] at ho
      exact ⟨bytes, ho, gb.1, gb.1.decode (by omega), hr⟩
    · rw [List.drop_eq_getElem_cons (by omega), fput, hd] at hp
      cases hp
  | failed x hp => rw [hd] at hp; injection hp with hp; cases hp

/-- … a call that has failed has thrown one of the two exceptions of the documentation, because the host refused it something,
and its output file is what it was … -/
theorem C68_concurrent_errors (g : ∀ i, GoodJob (js i) f0) (a : Apart js) (r : FReach js f0 st) (i : Fin k) {e : Err}
    (hd : st.th i = .done (.error e)) :
    (e = .throw .invalidArgument ∨ e = .throw .runtimeError) ∧ st.refused i = 1 ∧
      st.files (js i).output = f0 (js i).output := by
  obtain ⟨bytes, gb, p⟩ := r.phase' g a i
  cases p with
  | start hp => rw [hd] at hp; cases hp
  | sized hp => rw [hd] at hp; cases hp
  | malloc m hp => rw [hd] at hp; cases hp
  | reading m hm hp =>
    obtain ⟨d, hd'⟩ : ∃ d, (js i).content.length - m = d + 1 := ⟨(js i).content.length - m - 1, by omega⟩
    rw [hd', fget, hd] at hp; cases hp
  | opening hp => rw [hd] at hp; cases hp
  | writing m hm hp => exact absurd (hd ▸ hp).symm fput_not_err
  | failed x hp hx ho hr hs =>
    rw [hd] at hp
    injection hp with hp
    injection hp with hp
    subst hp
    refine ⟨?_, hr, ho⟩
    rcases hx with rfl | rfl
    · exact .inl rfl
    · exact .inr rfl

/-- … and at any moment (so also if everything stops there) the output file of a call is what it was at the beginning or a
beginning of the right file. -/
theorem C68_at_any_moment (g : ∀ i, GoodJob (js i) f0) (a : Apart js) (r : FReach js f0 st) (i : Fin k) :
    st.files (js i).output = f0 (js i).output ∨
      ∃ bytes m, FileFormat (js i).content bytes ∧ st.files (js i).output = some (bytes.take m) := by
  obtain ⟨bytes, gb, p⟩ := r.phase' g a i
  cases p with
  | start _ _ ho => exact .inl ho
  | sized _ _ ho => exact .inl ho
  | malloc _ _ _ ho => exact .inl ho
  | reading _ _ _ _ ho => exact .inl ho
  | opening _ _ ho => exact .inl ho
  | writing m _ _ ho => exact .inr ⟨bytes, m, gb.1, ho⟩
  | failed _ _ _ ho => exact .inl ho

/-- An input that is not the output of a call is never changed. -/
theorem C68_inputs_kept (g : ∀ i, GoodJob (js i) f0) (a : Apart js) (r : FReach js f0 st) (i : Fin k)
    (hi : ∀ j, (js j).output ≠ (js i).input) : st.files (js i).input = some (js i).content := by
  induction r with
  | start => exact (g i).file
  | step st st' r s ih =>
    cases s with
    | job j p f ref s =>
      obtain ⟨bytes, gb, ph⟩ := r.phase' g a j
      have h := (ph.next (g j).len3 (g j).len57 gb s).2
      rw [← ih]
      exact h _ (Ne.symm (hi j))
    | others f hf => exact (hf i).1.trans ih

/-- A call does at most `2 n + 12` actions, however they are answered, and exactly so many if it returns normally. -/
theorem C68_bounded (g : ∀ i, GoodJob (js i) f0) (a : Apart js) (r : FReach js f0 st) (i : Fin k) :
    st.steps i ≤ 2 * (js i).content.length + 12 ∧
      (st.th i = .done (.ok ()) → st.steps i = 2 * (js i).content.length + 12) := by
  obtain ⟨bytes, gb, p⟩ := r.phase' g a i
  have hlen := gb.1.length
  have h3 := (g i).len3
  cases p with
  | start hp _ _ _ hs => exact ⟨by omega, fun hd => by rw [hd] at hp; cases hp⟩
  | sized hp _ _ _ hs => exact ⟨by omega, fun hd => by rw [hd] at hp; cases hp⟩
  | malloc m hp _ _ _ hs => exact ⟨by omega, fun hd => by rw [hd] at hp; cases hp⟩
  | reading m hm hp _ _ _ hs =>
    refine ⟨by omega, fun hd => ?_⟩
    obtain ⟨d, hd'⟩ : ∃ d, (js i).content.length - m = d + 1 := ⟨(js i).content.length - m - 1, by omega⟩
    rw [hd', fget, hd] at hp; cases hp
  | opening hp _ _ _ hs => exact ⟨by omega, fun hd => by rw [hd] at hp; cases hp⟩
  | writing m hm hp ho hr hs =>
    refine ⟨by omega, fun hd => ?_⟩
    by_cases hl : m = bytes.length
    · omega
    · rw [List.drop_eq_getElem_cons (by omega), fput, hd] at hp
      cases hp
  | failed x hp _ _ _ hs => exact ⟨by omega, fun hd => by rw [hd] at hp; injection hp with hp; cases hp⟩

end

/-! ## Nobody waits -/

/-- A call that has not ended can go on, without being refused anything. -/
theorem Phase.progress {j : Job} {o : Option (List Nat)} {bytes : List Nat} {p : FTh} {f : Files} {ref steps : Nat}
    (h : Phase j o bytes p (f j.input) (f j.output) ref steps) :
    (∃ r, p = .done r) ∨ ∃ p' f', FStep p f p' f' 0 := by
  cases h with
  | start hp hi => subst hp; exact .inr ⟨_, _, .openR _ _ _ (by rw [hi]; simp)⟩
  | sized hp => subst hp; exact .inr ⟨_, _, .size _ _ _⟩
  | malloc m hp => subst hp; exact .inr ⟨_, _, .malloc _ _ _⟩
  | reading m hm hp =>
    obtain ⟨d, hd'⟩ : ∃ d, j.content.length - m = d + 1 := ⟨j.content.length - m - 1, by omega⟩
    rw [hd', fget] at hp
    subst hp
    exact .inr ⟨_, _, .get _ _ _ _⟩
  | opening hp => subst hp; exact .inr ⟨_, _, .openW _ _ _⟩
  | writing m hm hp =>
    by_cases hl : m = bytes.length
    · rw [hl, List.drop_length, fput] at hp
      exact .inl ⟨_, hp⟩
    · rw [List.drop_eq_getElem_cons (by omega), fput] at hp
      subst hp
      exact .inr ⟨_, _, .put _ _ _ _ _⟩
  | failed x hp => exact .inl ⟨_, hp⟩

section
variable {js : Fin k → Job} {f0 : Files} {st : FSys k}

/-- No call waits for another: in every reachable state, every call that has not ended can do an action. -/
theorem C68_no_waiting (g : ∀ i, GoodJob (js i) f0) (a : Apart js) (r : FReach js f0 st) (i : Fin k)
    (hn : ∀ x, st.th i ≠ .done x) : ∃ p f, FStep (st.th i) st.files p f 0 ∧ FReach js f0 (st.act i p f 0) := by
  obtain ⟨bytes, gb, ph⟩ := r.phase' g a i
  rcases ph.progress with ⟨x, hx⟩ | ⟨p, f, hs⟩
  · exact absurd hx (hn x)
  · exact ⟨p, f, hs, .step _ _ r (.job st i p f 0 hs)⟩

theorem finish_one (g : ∀ i, GoodJob (js i) f0) (a : Apart js) (i : Fin k) : ∀ (d : Nat) (st : FSys k), FReach js f0 st →
    2 * (js i).content.length + 12 - st.steps i ≤ d → ∃ st', FReach js f0 st' ∧ (∃ x, st'.th i = .done x) ∧
      (∀ j, j ≠ i → st'.th j = st.th j) ∧ st'.refused = st.refused := by
  intro d
  induction d with
  | zero =>
    intro st r hd
    by_cases hn : ∃ x, st.th i = .done x
    · exact ⟨st, r, hn, fun _ _ => rfl, rfl⟩
    · obtain ⟨p, f, _, r'⟩ := C68_no_waiting g a r i (fun x hx => hn ⟨x, hx⟩)
      have := (C68_bounded g a r' i).1
      simp only [FSys.act, Function.update_self] at this
      omega
  | succ d ih =>
    intro st r hd
    by_cases hn : ∃ x, st.th i = .done x
    · exact ⟨st, r, hn, fun _ _ => rfl, rfl⟩
    · obtain ⟨p, f, _, r'⟩ := C68_no_waiting g a r i (fun x hx => hn ⟨x, hx⟩)
      obtain ⟨st', h1, h2, h3, h4⟩ := ih _ r' (by simp only [FSys.act, Function.update_self]; omega)
      refine ⟨st', h1, h2, fun j hj => ?_, ?_⟩
      · rw [h3 j hj]; simp [FSys.act, hj]
      · rw [h4]; simp [FSys.act]

theorem finish_list (g : ∀ i, GoodJob (js i) f0) (a : Apart js) : ∀ (l : List (Fin k)) (st : FSys k), FReach js f0 st →
    ∃ st', FReach js f0 st' ∧ (∀ i ∈ l, ∃ x, st'.th i = .done x) ∧
      (∀ j, (∃ x, st.th j = .done x) → ∃ x, st'.th j = .done x) ∧ st'.refused = st.refused
  | [], st, r => ⟨st, r, fun _ h => absurd h (by simp), fun _ h => h, rfl⟩
  | i :: l, st, r => by
    obtain ⟨s1, r1, h1, h2, h3⟩ := finish_one g a i _ st r (Nat.le_refl _)
    obtain ⟨s2, r2, k1, k2, k3⟩ := finish_list g a l s1 r1
    refine ⟨s2, r2, fun j hj => ?_, fun j hj => ?_, k3.trans h3⟩
    · rcases List.mem_cons.1 hj with rfl | hj
      · exact k2 _ h1
      · exact k1 j hj
    · by_cases hij : j = i
      · exact k2 _ (hij ▸ h1)
      · exact k2 _ (by rw [h2 j hij]; exact hj)

/-- From every reachable state all calls can be brought to their ends without any of them being refused anything more; and
then every call that was never refused anything has returned normally, its output holding the format of its input. -/
theorem C68_can_finish (g : ∀ i, GoodJob (js i) f0) (a : Apart js) (r : FReach js f0 st) :
    ∃ st', FReach js f0 st' ∧ st'.refused = st.refused ∧ (∀ i, ∃ x, st'.th i = .done x) ∧
      ∀ i, st.refused i = 0 → st'.th i = .done (.ok ()) ∧
        ∃ bytes, st'.files (js i).output = some bytes ∧ FileFormat (js i).content bytes := by
  obtain ⟨s', r', h1, _, h3⟩ := finish_list g a (List.finRange k) st r
  refine ⟨s', r', h3, fun i => h1 i (List.mem_finRange i), fun i hi => ?_⟩
  obtain ⟨x, hx⟩ := h1 i (List.mem_finRange i)
  cases x with
  | ok u =>
    obtain ⟨b, h4, h5, _⟩ := C68_concurrent_files g a r' i hx
    exact ⟨hx, b, h4, h5⟩
  | error e =>
    have := (C68_concurrent_errors g a r' i hx).2.1
    rw [h3, hi] at this
    omega

/-! ## What `Apart` is for -/

/-- one program alone, without being refused anything -/
inductive Solo : FTh → Files → FTh → Files → Prop
  | refl (p : FTh) (f : Files) : Solo p f p f
  | step (p p' q : FTh) (f f' x : Files) : FStep p f p' f' 0 → Solo p' f' q x → Solo p f q x

theorem Solo.trans {p q s : FTh} {f x y : Files} (h : Solo p f q x) (h' : Solo q x s y) : Solo p f s y := by
  induction h with
  | refl _ _ => exact h'
  | step _ _ _ _ _ _ hs _ ih => exact .step _ _ _ _ _ _ hs (ih h')

theorem Solo.lift {p q : FTh} {f x : Files} (h : Solo p f q x) (i : Fin k) : ∀ (st : FSys k), FReach js f0 st →
    st.th i = p → st.files = f → ∃ n, FReach js f0 { th := Function.update st.th i q, files := x, refused := st.refused, steps := n } := by
  induction h with
  | refl p f =>
    intro st r h1 h2
    refine ⟨st.steps, ?_⟩
    subst h1; subst h2
    simpa using r
  | step p p' q f f' x hs _ ih =>
    intro st r h1 h2
    subst h1; subst h2
    obtain ⟨n, hn⟩ := ih (st.act i p' f' 0) (.step _ _ r (.job st i p' f' 0 hs)) (by simp [FSys.act]) rfl
    refine ⟨n, ?_⟩
    simpa [FSys.act] using hn

theorem solo_fget {name : String} {K : List Nat → FTh} {f : Files} {c : List Nat} (hf : f name = some c) :
    ∀ (d m : Nat), c.length - m = d → m ≤ c.length → Solo (fget name d m (c.take m) K) f (K c) f
  | 0, m, hd, hm => by
    rw [fget, List.take_of_length_le (by omega)]
    exact .refl _ _
  | d + 1, m, hd, hm => by
    rw [fget]
    refine .step _ _ _ _ _ _ (.get _ _ _ _) ?_
    have hm' : m < c.length := by omega
    have eg : ((f name).getD [])[m]? = some c[m] := by rw [hf, Option.getD_some, List.getElem?_eq_getElem hm']
    rw [eg]
    simp only
    rw [show c.take m ++ [c[m]] = c.take (m + 1) by rw [List.take_succ_eq_append_getElem hm']]
    exact solo_fget hf d (m + 1) (by omega) (by omega)

theorem putAt_eq (c : List Nat) (pos b : Nat) (h : pos ≤ c.length) : putAt c pos b = c.take pos ++ b :: c.drop (pos + 1) := by
  unfold putAt
  split
  · next h => rw [List.set_eq_take_append_cons_drop, if_pos h]
  · next h' =>
    have : pos = c.length := by omega
    subst this
    simp

theorem solo_fput {name : String} {K : FTh} (f : Files) : ∀ (l : List Nat) (pos : Nat) (c : List Nat), pos ≤ c.length →
    Solo (fput name pos l K) (f.set name c) K (f.set name (c.take pos ++ l ++ c.drop (pos + l.length)))
  | [], pos, c, _ => by
    rw [fput, List.append_nil, List.length_nil, Nat.add_zero, List.take_append_drop]
    exact .refl _ _
  | b :: l, pos, c, h => by
    rw [fput]
    refine .step _ _ _ _ _ _ (.put _ _ _ _ _) ?_
    rw [Files.set_at, Option.getD_some, Files.set_set, putAt_eq _ _ _ h]
    have hl : (c.take pos).length = pos := by rw [List.length_take]; omega
    have := solo_fput (name := name) (K := K) f l (pos + 1) (c.take pos ++ b :: c.drop (pos + 1)) (by simp; omega)
    have e : (c.take pos ++ b :: c.drop (pos + 1)).take (pos + 1) ++ l ++ (c.take pos ++ b :: c.drop (pos + 1)).drop (pos + 1 + l.length)
        = c.take pos ++ (b :: l) ++ c.drop (pos + (b :: l).length) := by
      have e1 : c.take pos ++ b :: c.drop (pos + 1) = (c.take pos ++ [b]) ++ c.drop (pos + 1) := by simp
      have hl1 : (c.take pos ++ [b]).length = pos + 1 := by simp [hl]
      rw [e1, List.take_append_of_le_length (by omega), List.take_of_length_le (by omega),
        List.drop_append, List.drop_of_length_le (l := c.take pos ++ [b]) (by omega), hl1, List.nil_append, List.drop_drop]
      simp only [List.append_assoc, List.singleton_append, List.length_cons]
      rw [show pos + 1 + (pos + 1 + l.length - (pos + 1)) = pos + (l.length + 1) by omega]
    rwa [e] at this

/-- a call alone up to its `fopen` for writing -/
theorem solo_upto {j : Job} {f0 f : Files} {bytes : List Nat} (g : GoodJob j f0) (gb : GoodBytes j bytes)
    (hf : f j.input = some j.content) : Solo j.prog f (.openW j.output fun ok =>
      if ok then fput j.output 0 bytes (.done (.ok ())) else .done (.error (.throw .invalidArgument))) f := by
  have h57 := g.len57
  have en : (((j.content.length : Nat) : Int) % 2 ^ 64).toNat = j.content.length := by omega
  unfold Job.prog bwtFileC
  refine .step _ _ _ _ _ _ (.openR _ _ _ (by rw [hf]; simp)) ?_
  refine .step _ _ _ _ _ _ (.size _ _ _) ?_
  rw [hf, Option.getD_some]
  refine .step _ _ _ _ _ _ (.malloc _ _ _) ?_
  simp only [if_true, en]
  rw [← gb.2]
  exact solo_fget hf j.content.length 0 (by omega) (by omega)

/-- … to the end -/
theorem solo_all {j : Job} {f0 f : Files} {bytes : List Nat} (g : GoodJob j f0) (gb : GoodBytes j bytes)
    (hf : f j.input = some j.content) : Solo j.prog f (.done (.ok ())) (f.set j.output bytes) := by
  refine (solo_upto g gb hf).trans (.step _ _ _ _ _ _ (.openW _ _ _) ?_)
  simp only [if_true]
  have := solo_fput (name := j.output) (K := .done (.ok ())) f bytes 0 [] (Nat.le_refl _)
  simpa using this

/-- **C68** (the condition is needed) two calls with the same output file, not an input of theirs: there is a schedule after
which both have returned normally and were refused nothing, and the output file is neither the right file of the one nor of
the other, if the second input is shorter and contains a byte that is not in the first. -/
theorem C68_same_output (g : ∀ i, GoodJob (js i) f0) (i j : Fin k) (hij : i ≠ j) (ho : (js i).output = (js j).output)
    (hi : (js i).input ≠ (js i).output) (hlen : (js j).content.length < (js i).content.length) {x : Nat}
    (hx : x ∈ (js j).content) (hx' : x ∉ (js i).content) :
    ∃ st, FReach js f0 st ∧ st.th i = .done (.ok ()) ∧ st.th j = .done (.ok ()) ∧ (∀ l, st.refused l = 0) ∧
      ∃ bytes, st.files (js i).output = some bytes ∧ ¬ FileFormat (js i).content bytes ∧ ¬ FileFormat (js j).content bytes := by
  obtain ⟨A, fa, ga⟩ := afterRead_eq (g i)
  obtain ⟨B, fb, gb⟩ := afterRead_eq (g j)
  have la := fa.length
  have lb := fb.length
  -- the second call up to its first write
  obtain ⟨n1, r1⟩ := ((solo_upto (g j) ⟨fb, gb⟩ (g j).file).trans (.step _ _ _ _ _ _ (.openW _ _ _) (.refl _ _))).lift
    (js := js) (f0 := f0) j _ .start rfl rfl
  -- the first call to its end
  obtain ⟨n2, r2⟩ := (solo_all (f := f0.set (js j).output []) (g i) ⟨fa, ga⟩
    (by rw [Files.set_ne _ _ (ho ▸ hi)]; exact (g i).file)).lift (js := js) (f0 := f0) i _ r1
    (by simp [hij, FSys.start]) rfl
  -- the second call to its end
  have e3 := solo_fput (name := (js j).output) (K := .done (.ok ())) f0 B 0 A (Nat.zero_le _)
  simp only [List.take_zero, List.nil_append, Nat.zero_add] at e3
  obtain ⟨n3, r3⟩ := e3.lift (js := js) (f0 := f0) j _ r2 (by simp [Ne.symm hij]) (by simp only [ho, Files.set_set])
  refine ⟨_, r3, by simp [hij], by simp, fun l => rfl, B ++ A.drop B.length, by simp only [ho]; exact Files.set_at _ _ _, ?_, ?_⟩
  · intro h
    have e := h.unique fa
    obtain ⟨b, last, h3, rfl⟩ := fb
    obtain ⟨a, last', h3', rfl⟩ := fa
    have hxb : x ∈ rowsWithout (js j).content.length b last := h3.perm.mem_iff.2 hx
    have hxa : x ∉ rowsWithout (js i).content.length a last' := fun h => hx' (h3'.perm.mem_iff.1 h)
    have e2 := congrArg (List.drop 8) e
    rw [List.append_assoc, List.drop_left' (bigEndian8_length last), List.drop_left' (bigEndian8_length last')] at e2
    exact hxa (e2 ▸ List.mem_append_left _ hxb)
  · intro h
    have := h.length
    rw [List.length_append, List.length_drop] at this
    omega

/-- **C68** (the condition is needed) if a call's input is the output of another call, there is a schedule in which it fails with
`runtime_error` although nothing was refused: the other call has emptied the file. -/
theorem C68_input_of_another (g : ∀ i, GoodJob (js i) f0) (i j : Fin k) (hij : i ≠ j) (ho : (js i).output = (js j).input)
    : ∃ st, FReach js f0 st ∧ st.th j = .done (.error (.throw .runtimeError)) ∧ ∀ l, st.refused l = 0 := by
  obtain ⟨A, fa, ga⟩ := afterRead_eq (g i)
  have h3 := (g j).len3
  have h57 := (g j).len57
  have en : ((((js j).content.length : Nat) : Int) % 2 ^ 64).toNat = (js j).content.length := by omega
  have s1 : Solo (js j).prog f0 (fget (js j).input (js j).content.length 0 []
      (afterRead (js j).w (js j).h (js j).output (js j).content.length)) f0 := by
    unfold Job.prog bwtFileC
    refine .step _ _ _ _ _ _ (.openR _ _ _ (by rw [(g j).file]; simp)) ?_
    refine .step _ _ _ _ _ _ (.size _ _ _) ?_
    rw [(g j).file, Option.getD_some]
    refine .step _ _ _ _ _ _ (.malloc _ _ _) ?_
    simp only [if_true, en]
    exact .refl _ _
  obtain ⟨n1, r1⟩ := s1.lift (js := js) (f0 := f0) j _ .start rfl rfl
  obtain ⟨n2, r2⟩ := ((solo_upto (g i) ⟨fa, ga⟩ (g i).file).trans (.step _ _ _ _ _ _ (.openW _ _ _) (.refl _ _))).lift
    (js := js) (f0 := f0) i _ r1 (by simp [hij, FSys.start]) rfl
  have s3 : Solo (fget (js j).input (js j).content.length 0 []
      (afterRead (js j).w (js j).h (js j).output (js j).content.length)) (f0.set (js i).output [])
      (.done (.error (.throw .runtimeError))) (f0.set (js i).output []) := by
    obtain ⟨d, hd⟩ : ∃ d, (js j).content.length = d + 1 := ⟨(js j).content.length - 1, by omega⟩
    rw [hd, fget]
    refine .step _ _ _ _ _ _ (.get _ _ _ _) ?_
    rw [ho, Files.set_at]
    simp only [Option.getD_some, List.getElem?_nil]
    unfold afterRead freadBlock
    rw [if_pos (by simp)]
    exact .refl _ _
  obtain ⟨n3, r3⟩ := s3.lift (js := js) (f0 := f0) j _ r2 (by simp [Ne.symm hij]) rfl
  exact ⟨_, r3, by simp, fun l => rfl⟩

end

/-! ## The hypotheses can be met -/

/-- three calls: two with the same input, one of them in place -/
def niceJobs : Fin 3 → Job := fun i =>
  if i.val = 0 then ⟨niceWorld, niceHost, "in", "a", banana⟩
  else if i.val = 1 then ⟨niceWorld, niceHost, "in", "b", banana⟩
  else ⟨niceWorld, niceHost, "c", "c", [1, 2, 3]⟩

def niceStart : Files := fun f => if f = "in" then some banana else if f = "c" then some [1, 2, 3] else none

theorem niceJobs_good : ∀ i, GoodJob (niceJobs i) niceStart := by
  intro i
  have : i.val = 0 ∨ i.val = 1 ∨ i.val = 2 := by omega
  unfold niceJobs
  rcases this with h | h | h <;> rw [h] <;>
    exact ⟨rfl, by decide, by decide, by decide, insSort_ok, lengthsSafe_short _ (by decide), by decide⟩

theorem niceJobs_apart : Apart niceJobs := by
  unfold Apart
  decide

example : ∃ st, FReach niceJobs niceStart st ∧ ∀ i, st.th i = .done (.ok ()) ∧
    ∃ bytes, st.files (niceJobs i).output = some bytes ∧ FileFormat (niceJobs i).content bytes := by
  obtain ⟨st, r, _, _, h⟩ := C68_can_finish niceJobs_good niceJobs_apart .start
  exact ⟨st, r, fun i => h i rfl⟩

/-- two calls with the same output -/
def clash : Fin 2 → Job := fun i =>
  if i.val = 0 then ⟨niceWorld, niceHost, "in", "a", banana⟩ else ⟨niceWorld, niceHost, "c", "a", [1, 2, 3]⟩

example : ∃ st, FReach clash niceStart st ∧ st.th 0 = .done (.ok ()) ∧ st.th 1 = .done (.ok ()) ∧ (∀ l, st.refused l = 0) ∧
    ∃ bytes, st.files "a" = some bytes ∧ ¬ FileFormat banana bytes ∧ ¬ FileFormat [1, 2, 3] bytes :=
  C68_same_output (js := clash) (f0 := niceStart) (x := 3)
    (fun i => by
      have : i.val = 0 ∨ i.val = 1 := by omega
      unfold clash
      rcases this with h | h <;> rw [h] <;>
        exact ⟨rfl, by decide, by decide, by decide, insSort_ok, lengthsSafe_short _ (by decide), by decide⟩)
    0 1 (by decide) rfl (by decide) (by decide) (by decide) (by decide)

end Flbwt
