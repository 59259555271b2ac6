import Verif.PropsTop
import Verif.ErrIn

/-!
# Property C36: the byte after the string is read
-/

namespace Flbwt

open HashTable (ok_bind)

def Oob (e : Err) : Prop := e = .ub .outOfBounds

theorem oobRd {α : Type} {m : Mem α} {i : Nat} : ErrIn Oob (m.rd i) (fun a => i < m.size ∧ a = m.data i) :=
  ErrIn.rd (P := Oob) rfl
theorem oobWr {α : Type} {m : Mem α} {i : Nat} {v : α} : ErrIn Oob (m.wr i v) (fun a => i < m.size ∧ a = m.upd i v) :=
  ErrIn.wr (P := Oob) rfl

theorem hashFunction_oob {k : Nat} {T : Mem Nat} {m p : Nat} (h : p + m = T.size) :
    ErrIn Oob (HashTable.hashFunction k T (m + 1) p) (fun _ => False) := by
  unfold HashTable.hashFunction
  refine ErrIn.bind (Q := fun _ => False) ?_ (fun _ h => h.elim)
  refine ErrIn.loopUp_false (fun _ => True) 0 m 0 _ trivial ?_ ?_ _
  · intro i s _ _ _
    exact oobRd.bind (fun _ _ => ErrIn.ok trivial)
  · intro s _
    refine oobRd.bind (fun a ha => ?_)
    have := ha.1; omega

theorem getLength_oob (buf : Mem Nat) (p : Nat) : ErrIn Oob (HashTable.getLength buf p) (fun _ => True) := by
  unfold HashTable.getLength
  refine oobRd.bind (fun a _ => ?_)
  refine ErrIn.ite (fun _ => ErrIn.ok trivial) (fun _ => ?_)
  refine oobRd.bind (fun b _ => ?_)
  refine ErrIn.loopUp (fun _ _ => True) _ _ _ _ trivial ?_
  intro i s _ _ _
  exact oobRd.bind (fun _ _ => ErrIn.ok trivial)

theorem setName_oob (nb : Nat) (buf : Mem Nat) (p x : Nat) : ErrIn Oob (HashTable.setName nb buf p x) (fun _ => True) := by
  unfold HashTable.setName
  refine (getLength_oob buf p).bind (fun l _ => ?_)
  refine oobRd.bind (fun b _ => ?_)
  refine ErrIn.bind (Q := fun _ => True) ?_ (fun _ _ => ErrIn.ok trivial)
  refine ErrIn.loopUp (fun _ _ => True) _ _ _ _ trivial ?_
  intro i s _ _ _
  exact oobWr.bind (fun _ _ => ErrIn.ok trivial)

theorem writeHead_oob {nb : Nat} {T : Mem Nat} {u : Nat} {buf : Mem Nat} {r : Nat} (h1 : T.size + 1 < 2 ^ 64)
    (hs : r + 1 + HashTable.nb (T.size + 1) ≤ buf.size) :
    ErrIn Oob (writeHead nb T T.size u buf r) (fun _ => False) := by
  unfold writeHead
  refine (HashTable.setLength_raw buf r (T.size + 1) (by omega) h1 hs).errIn.bind (fun b _ => ?_)
  refine (setName_oob nb b r _).bind (fun b _ => ?_)
  refine ErrIn.bind (Q := fun _ => True) ((show ErrIn Oob (HashTable.getLenlen b r) _ from oobRd).mono (fun _ _ => trivial)) (fun ll _ => ?_)
  refine oobRd.bind (fun c _ => ?_)
  refine oobWr.bind (fun b _ => ?_)
  refine ErrIn.bind (Q := fun _ => False) ?_ (fun _ h => h.elim)
  refine ErrIn.loopUp_false (fun _ => True) 0 T.size _ _ trivial ?_ ?_ _
  · intro i s _ _ _
    refine oobRd.bind (fun c _ => ?_)
    exact oobWr.mono (fun _ _ => trivial)
  · intro s _
    refine oobRd.bind (fun a ha => ?_)
    have := ha.1; omega

/-- State of the scan as long as no S* string was found. -/
structure NoneYet (n : Nat) (ht : HashTable) (s : ExSt) : Prop where
  M : s.M.size = 258
  NL : s.NL.size = 258
  C : s.C.size = 258
  ht' : s.ht = ht
  u : s.numUnique = 0
  p : s.p = n
  q : s.q = n

theorem bump_size {a : Mem Nat} {i : Nat} : ErrIn Oob (bump a i) (fun b => b.size = a.size) := by
  unfold bump
  refine oobRd.bind (fun x _ => ?_)
  refine oobWr.mono ?_
  rintro b ⟨_, rfl⟩
  rfl

theorem exStep_oob {junk : Fresh} {T : Mem Nat} {ht : HashTable} {i : Nat} {s : ExSt} (hn : T.size < 2 ^ 62) (hi : i + 1 < T.size)
    (h : NoneYet T.size ht s) : ErrIn Oob (exStep junk T i s) (NoneYet T.size ht) := by
  unfold exStep
  refine oobRd.bind (fun a _ => ?_)
  refine oobRd.bind (fun b _ => ?_)
  refine bump_size.bind (fun M hM => ?_)
  refine ErrIn.ite (fun _ => ErrIn.ok ⟨hM.trans h.M, h.NL, h.C, h.ht', h.u, h.p, h.q⟩) (fun _ => ?_)
  refine ErrIn.ite (fun _ => ?_) (fun _ => ?_)
  · refine ErrIn.bind (Q := NoneYet T.size ht) ?_ ?_
    · unfold exMaybe
      refine ErrIn.ite (fun _ => ?_) (fun _ => ErrIn.ok ⟨hM.trans h.M, h.NL, h.C, h.ht', h.u, h.p, h.q⟩)
      unfold exFound
      refine oobRd.bind (fun c _ => ?_)
      refine bump_size.bind (fun C _ => ?_)
      refine ErrIn.bind (Q := fun _ => False) ?_ (fun _ h => h.elim)
      unfold HashTable.insertString
      refine ErrIn.bind (Q := fun _ => False) ?_ (fun _ h => h.elim)
      simp only
      rw [h.q, subU64_eq (by omega), addU64_eq (by omega)]
      exact hashFunction_oob (by omega)
    · intro s' h'
      refine bump_size.bind (fun NL hNL => ?_)
      exact ErrIn.ok ⟨h'.M, hNL.trans h'.NL, h'.C, h'.ht', h'.u, h'.p, h'.q⟩
  · refine ErrIn.ite (fun _ => ?_) (fun _ => ErrIn.ok ⟨hM.trans h.M, h.NL, h.C, h.ht', h.u, h.p, h.q⟩)
    refine bump_size.bind (fun NL hNL => ?_)
    exact ErrIn.ok ⟨hM.trans h.M, hNL.trans h.NL, h.C, h.ht', h.u, h.p, h.q⟩

theorem extract_oob {junk : Fresh} {T : Mem Nat} (h3 : 3 ≤ T.size) (hn : T.size < 2 ^ 62) :
    ErrIn Oob (extractLMS junk T T.size) (fun ct => ct.numUnique = 0 ∧ ct.headEnd = T.size ∧ ∃ ht : HashTable,
      ct.hashtable = some ht ∧ ht.bufsize = 0 ∧ ht.head.size = ht.htsize ∧ (∀ h, ht.head.data h = 0) ∧ ht.nameBytes ≤ 8) := by
  unfold extractLMS
  simp only
  rw [if_neg (by omega)]
  refine (HashTable.new_tab 67777 T.size (by omega) (by omega)).errIn.bind ?_
  rintro ht ⟨t, h1, h2, _, h4, _, _, h5⟩
  refine bump_size.bind (fun M hM => ?_)
  refine oobRd.bind (fun c _ => ?_)
  refine bump_size.bind (fun M' hM' => ?_)
  refine bump_size.bind (fun NL hNL => ?_)
  refine bump_size.bind (fun C hC => ?_)
  refine ErrIn.bind (ErrIn.loopDown (fun _ => NoneYet T.size ht) (T.size - 1) _ _
    ⟨hM'.trans hM, hNL, hC, rfl, rfl, rfl, rfl⟩ (fun i s hi hs => exStep_oob hn (by omega) hs)) ?_
  intro s hs
  exact ErrIn.ok ⟨hs.u, hs.p, ht, by simp only [hs.ht'], h2, t.headsz, h4, h5⟩

theorem collect_empty {ht : HashTable} {s : Mem Nat} (hh : ht.head.size = ht.htsize) (h0 : ∀ h, ht.head.data h = 0) :
    HashTable.collect ht s 1 = .ok (s, 1) := by
  apply Tot.eq_ok
  unfold HashTable.collect
  refine loopUp_spec (fun _ st => st = (s, 1)) 0 ht.htsize (s, 1) _ rfl ?_
  rintro i st _ hi rfl
  rw [Mem.rd_ok _ (by omega), ok_bind, h0]
  simp only [whileM, HashTable.collectStep, ne_eq, not_true_eq_false, if_false, ok_bind, Tot_ok]

/-- **C36** a block of exactly `n ≥ 3` bytes is read out of bounds, whatever it contains: the terminator `T[n]` is part of
the contract of `bwt_string`. -/
theorem C36_terminator_required (w : World) (hS : SortsOK w.sorter) (T : Mem Nat) (h3 : 3 ≤ T.size) (hn : T.size < 2 ^ 62)
    (hroom : T.size + 64 ≤ w.junk.lim) (freeT : Bool) : bwtString w (some T) T.size freeT = .error (.ub .outOfBounds) := by
  suffices h : ErrIn Oob (bwtString w (some T) T.size freeT) (fun _ => False) by
    cases hb : bwtString w (some T) T.size freeT with
    | ok a => rw [hb] at h; exact h.elim
    | error e => rw [hb] at h; rw [show e = .ub .outOfBounds from h]
  simp only [bwtString]
  rw [if_neg (by omega)]
  unfold bwtIs
  refine (extract_oob h3 hn).bind ?_
  rintro ct ⟨hu, he, ht, hht, hb, hh, h0, hN⟩
  refine ErrIn.bind (Q := fun _ => False) ?_ (fun _ h => h.elim)
  unfold sortLMS
  rw [hht]
  unfold sortNames sortHead
  simp only
  rw [he, HashTable.calculateLenlen_eq (by omega) (by omega), ok_bind]
  have hnb := HashTable.nb_le8 (m := T.size + 1) (by omega) (by omega)
  unfold reallocBytes
  rw [if_pos (by constructor <;> omega), ok_bind, collect_empty (by exact hh) (by exact h0), ok_bind]
  simp only [readRange, subU64_eq (Nat.le_refl 1), Nat.sub_self, List.range_zero, List.mapM_nil]
  obtain ⟨l', e1, e2, _⟩ := hS (lmsCompare ⟨ht.bufsize + (1 + 1 + HashTable.nb (T.size + 1) + (T.size + 1) + ht.nameBytes + (1 + 1 + 1 + 1 + ht.nameBytes)),
    fun i => if i < ht.buf.size then ht.buf.data i else w.junk i % 256⟩) (fun _ _ => false) [] (by simp) ⟨by simp, by simp, by simp⟩
  rw [List.perm_nil] at e2
  subst e2
  rw [show (pure [] : M (List Nat)) = .ok [] from rfl, ok_bind, e1, ok_bind]
  simp only [writeRange, List.length_nil, loopUp, ok_bind, setNamesLoop]
  refine oobWr.bind ?_
  rintro s ⟨_, rfl⟩
  refine ErrIn.bind (Q := fun _ => False) (writeHead_oob (by omega) ?_) (fun _ h => h.elim)
  simp only
  omega

/-- "banana" without a terminator -/
example : bwtString ⟨⟨fun i => i, 1000⟩, fun _ => 9, fun _ => 5, fun _ => 7, fun _ _ => 1, fun _ _ _ _ => 2, fun _ => 3, 4, insSort⟩
    (some ⟨6, fun i => banana.getD i 0⟩) 6 false = .error (.ub .outOfBounds) :=
  C36_terminator_required _ insSort_ok ⟨6, fun i => banana.getD i 0⟩ (by decide) (by decide) (by decide) false

end Flbwt
