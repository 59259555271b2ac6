import Verif.PropsFile

/-!
# Property C77: histories of `bwt_file` calls

A user transforms files, overwrites files in place, transforms outputs again, in any order. The specification keeps, for every file,
which original file it comes from, how often it was transformed, and its size.
-/

namespace Flbwt

/-- A host and a memory on which nothing fails: every file may be read and written, `ftell`, `malloc`, `fread` and `fwrite` work for
files below `2^57` bytes, fresh memory is zero. -/
structure Kind (w : World) (h : Host) : Prop where
  read : ∀ f, h.mayRead f = true
  write : ∀ f, h.mayWrite f = true
  tell : ∀ c, h.tell c = c.length
  malloc : ∀ n, n ≤ 2 ^ 57 → h.mallocOk n = true
  full : 2 ^ 57 ≤ h.readMax
  takes : TakesAll h
  sort : SortsOK w.sorter
  zero : ∀ i, w.junk i % 256 = 0
  room : ∀ n, n < 2 ^ 57 → enoughFor n ≤ w.junk.lim

/-- The calls `bwt_file(inp, out)` of a list, one after the other, each in memory and on a host of its own. -/
def runCalls : List (World × Host × String × String) → FileM Unit
  | [] => pure ()
  | (w, h, inp, out) :: l => do
    bwtFile w h inp out
    runCalls l

/-- What the specification knows of a file: the original file it comes from, how often it was transformed, its size. -/
structure Origin where
  name : String
  depth : Nat
  size : Nat

/-- Specification: the origins after the calls; `none` if some input does not exist, has fewer than 3 or too many bytes. -/
def originsAfter : List (World × Host × String × String) → (String → Option Origin) → Option (String → Option Origin)
  | [], p => some p
  | (_, _, inp, out) :: l, p =>
    match p inp with
    | none => none
    | some o =>
      if 3 ≤ o.size ∧ o.size < 2 ^ 57 then
        originsAfter l fun f => if f = out then some ⟨o.name, o.depth + 1, o.size + 8⟩ else p f
      else none

/-- the origins at the beginning -/
def original (files : String → Option (List Nat)) : String → Option Origin := fun f => (files f).map fun c => ⟨f, 0, c.length⟩

/-- The files are what the origins say: decoding a file as often as it was transformed gives the original contents. -/
def Matches (files0 : String → Option (List Nat)) (p : String → Option Origin) (files : String → Option (List Nat)) : Prop :=
  ∀ f, match p f with
    | none => files f = none
    | some o => ∃ bytes c, files f = some bytes ∧ bytes.length = o.size ∧ files0 o.name = some c ∧ decodeFile^[o.depth] bytes = c

theorem format_byte {s bytes : List Nat} (h : FileFormat s bytes) (hs : ∀ x ∈ s, x < 256) : ∀ x ∈ bytes, x < 256 := by
  obtain ⟨b, last, h1, rfl⟩ := h
  intro x hx
  rcases List.mem_append.1 hx with hx | hx
  · unfold bigEndian8 at hx
    obtain ⟨i, _, rfl⟩ := List.mem_map.1 hx
    omega
  · exact hs x (h1.perm.mem_iff.1 hx)

theorem format_length {s bytes : List Nat} (h : FileFormat s bytes) : bytes.length = s.length + 8 := by
  obtain ⟨b, last, h3, rfl⟩ := h
  have := h3.last_lt
  rw [List.length_append, bigEndian8_length, rowsWithout_length b (by omega)]
  omega

theorem runCalls_spec (files0 : String → Option (List Nat)) (l : List (World × Host × String × String))
    (hk : ∀ c ∈ l, Kind c.1 c.2.1) (p p' : String → Option Origin) (s : FState)
    (hb : ∀ f c, s.files f = some c → ∀ x ∈ c, x < 256) (hm : Matches files0 p s.files) (e : originsAfter l p = some p') :
    ∃ s', runCalls l s = (.ok (), s') ∧ Matches files0 p' s'.files ∧ s'.streams = s.streams ∧ s'.blocks = s.blocks := by
  induction l generalizing p s with
  | nil => cases e; exact ⟨s, rfl, hm, rfl, rfl⟩
  | cons c l ih =>
    obtain ⟨w, h, inp, out⟩ := c
    have k : Kind w h := hk _ (List.mem_cons_self ..)
    simp only [originsAfter] at e
    cases hp : p inp with
    | none => rw [hp] at e; cases e
    | some o =>
      rw [hp] at e
      simp only at e
      split at e
      · next hsz =>
        have hmi := hm inp
        rw [hp] at hmi
        obtain ⟨bytes, c, h1, h2, h3, h4⟩ := hmi
        have g : FileCall w h inp s bytes := ⟨h1, k.read _, k.tell _, k.malloc _ (by omega), by have := k.full; omega, by omega,
          by omega, hb _ _ h1, k.sort, .inl k.zero, k.room _ (by omega)⟩
        obtain ⟨bs, hfm, hrun⟩ := g.run (out := out) (k.write _)
        rw [appended_all k.takes, List.nil_append] at hrun
        have hlen := format_length hfm
        obtain ⟨s', r1, r2, r3, r4⟩ := ih (fun c hc => hk c (List.mem_cons_of_mem _ hc)) _ (s.store out bs.flatten) (by
            intro f c hf x hx
            by_cases hfo : f = out
            · subst hfo
              rw [FState.store_at] at hf
              cases hf
              exact format_byte hfm (hb _ _ h1) x hx
            · exact hb f c (by simpa [FState.store, hfo] using hf) x hx) (by
            intro f
            by_cases hfo : f = out
            · subst hfo
              simp only [if_true]
              refine ⟨bs.flatten, c, FState.store_at .., by rw [hlen, h2], h3, ?_⟩
              rw [Function.iterate_succ_apply, hfm.decode (by omega), h4]
            · have := hm f
              simp only [if_neg hfo]
              have hsf : (s.store out bs.flatten).files f = s.files f := by simp [FState.store, hfo]
              rw [hsf]
              exact this) e
        refine ⟨s', ?_, r2, r3, r4⟩
        show FileM.bind (bwtFile w h inp out) (fun _ => runCalls l) s = _
        unfold FileM.bind
        rw [hrun]
        exact r1
      · cases e

/-- **C77** histories of `bwt_file` calls, in any order, on any files, also in place and on outputs of earlier calls: all calls return,
no stream stays open and no block allocated, and every file is at the end what the specification says: decoding it as often as it was
transformed gives the contents its origin had at the beginning. -/
theorem C77_histories (l : List (World × Host × String × String)) (hk : ∀ c ∈ l, Kind c.1 c.2.1) (s : FState)
    (hb : ∀ f c, s.files f = some c → ∀ x ∈ c, x < 256) (p : String → Option Origin)
    (e : originsAfter l (original s.files) = some p) :
    ∃ s', runCalls l s = (.ok (), s') ∧ Matches s.files p s'.files ∧ s'.streams = s.streams ∧ s'.blocks = s.blocks := by
  refine runCalls_spec s.files l hk _ p s hb (fun f => ?_) e
  unfold original
  cases hf : s.files f with
  | none => rfl
  | some c => exact ⟨c, c, rfl, rfl, hf, rfl⟩

theorem originsAfter_inPlace (w : World) (h : Host) (name : String) (k : Nat) (p : String → Option Origin) (o : Origin)
    (hp : p name = some o) (h3 : 3 ≤ o.size) (h57 : o.size + 8 * k ≤ 2 ^ 57 + 7) :
    ∃ p', originsAfter (List.replicate k (w, h, name, name)) p = some p' ∧ p' name = some ⟨o.name, o.depth + k, o.size + 8 * k⟩ ∧
      ∀ f, f ≠ name → p' f = p f := by
  induction k generalizing p o with
  | zero => exact ⟨p, rfl, hp, fun _ _ => rfl⟩
  | succ k ih =>
    obtain ⟨p', h1, h2, h4⟩ := ih (fun f => if f = name then some ⟨o.name, o.depth + 1, o.size + 8⟩ else p f)
      ⟨o.name, o.depth + 1, o.size + 8⟩ (if_pos rfl) (by simp only; omega) (by simp only; omega)
    refine ⟨p', ?_, ?_, fun f hf => ?_⟩
    · rw [List.replicate_succ]
      simp only [originsAfter, hp]
      rw [if_pos ⟨h3, by omega⟩]
      exact h1
    · rw [h2]
      simp only [Nat.mul_succ, Nat.add_assoc, Nat.add_comm, Nat.add_left_comm]
    · rw [h4 f hf, if_neg hf]

/-- **C77** a file transformed `k` times in place: it has `8k` more bytes, and decoding `k` times gives it back; no other file has
changed. -/
theorem C77_in_place (w : World) (h : Host) (hk : Kind w h) (name : String) (k : Nat) (s : FState) (content : List Nat)
    (hf : s.files name = some content) (hb : ∀ f c, s.files f = some c → ∀ x ∈ c, x < 256)
    (h3 : 3 ≤ content.length) (h57 : content.length + 8 * k ≤ 2 ^ 57 + 7) :
    ∃ bytes s', runCalls (List.replicate k (w, h, name, name)) s = (.ok (), s') ∧ s'.files name = some bytes ∧
      bytes.length = content.length + 8 * k ∧ decodeFile^[k] bytes = content ∧ ∀ f, f ≠ name → s'.files f = s.files f := by
  obtain ⟨p, e, h1, h2⟩ := originsAfter_inPlace w h name k (original s.files) ⟨name, 0, content.length⟩
    (by unfold original; rw [hf]; rfl) h3 h57
  obtain ⟨s', r1, r2, _⟩ := C77_histories _ (fun c hc => by obtain ⟨_, rfl⟩ := List.mem_replicate.1 hc; exact hk) s hb p e
  have hn := r2 name
  rw [h1] at hn
  obtain ⟨bytes, c, g1, g2, g3, g4⟩ := hn
  simp only at g2 g3 g4
  rw [hf] at g3
  cases g3
  refine ⟨bytes, s', r1, g1, g2, by rwa [Nat.zero_add] at g4, fun f hne => ?_⟩
  have hg := r2 f
  rw [h2 f hne] at hg
  unfold original at hg
  cases hsf : s.files f with
  | none => rw [hsf] at hg; exact hg
  | some c =>
    rw [hsf] at hg
    obtain ⟨b, c', q1, _, q3, q4⟩ := hg
    simp only at q3 q4
    rw [hsf] at q3
    cases q3
    rw [q1, ← q4]; rfl

/-! ## The hypotheses are met -/

/-- memory that is zero when fresh, and enough of it -/
def zeroWorld : World := { niceWorld with junk := ⟨fun _ => 0, 2 ^ 63⟩ }

theorem kind_nice : Kind zeroWorld niceHost :=
  ⟨fun _ => rfl, fun _ => rfl, fun _ => rfl, fun _ _ => rfl, by decide, nice_takes, insSort_ok, fun _ => rfl,
    fun n hn => by unfold enoughFor; show _ ≤ 2 ^ 63; omega⟩

/-- "banana" in file "in", transformed to "out", "out" transformed in place, then back over "in": `in` decodes three times to the
original, `out` twice. -/
example : ∃ bIn bOut s', runCalls [(zeroWorld, niceHost, "in", "out"), (zeroWorld, niceHost, "out", "out"), (zeroWorld, niceHost, "out", "in")]
    niceFiles = (.ok (), s') ∧ s'.files "in" = some bIn ∧ s'.files "out" = some bOut ∧ bIn.length = 30 ∧
    decodeFile (decodeFile (decodeFile bIn)) = banana ∧ decodeFile (decodeFile bOut) = banana := by
  obtain ⟨s', r1, r2, _⟩ := C77_histories [(zeroWorld, niceHost, "in", "out"), (zeroWorld, niceHost, "out", "out"), (zeroWorld, niceHost, "out", "in")]
    (by intro c hc; simp only [List.mem_cons, List.not_mem_nil, or_false] at hc; rcases hc with rfl | rfl | rfl <;> exact kind_nice)
    niceFiles (by
      intro f c hf x hx
      unfold niceFiles at hf
      simp only at hf
      split at hf
      · cases hf; revert x; decide
      · split at hf
        · cases hf; revert x; decide
        · cases hf) _ (by simp [originsAfter, original, niceFiles, banana]; rfl)
  obtain ⟨b, c1, e1, l1, f1, d1⟩ := r2 "in"
  obtain ⟨b', c2, e2, l2, f2, d2⟩ := r2 "out"
  have f1 : some banana = some c1 := f1
  have f2 : some banana = some c2 := f2
  exact ⟨b, b', s', r1, e1, e2, l1, d1.trans (Option.some.inj f1).symm, d2.trans (Option.some.inj f2).symm⟩

end Flbwt
