import Verif.HeapMain

/-!
# `bwt_is` and the heap (proof helpers)
-/

namespace Flbwt

open HashTable (ok_bind)

section
variable {R : Role → Prop} {h h0 : Heap} {L : List Blk} {P : Nat}

/-- the two ways in which a call ends when memory runs out -/
def OutOfMemory (e : HErr) : Prop := e = .badAlloc ∨ e = .prog (.ub .nullDeref)

theorem Post.cases {α : Type _} {a : α} {m : M α} {Q : α → Heap → Prop} {x : Except HErr α × Heap} (hm : m = .ok a)
    (p : Post R h m Q x) :
    (∃ h', x = (.ok a, h') ∧ Step R h h' ∧ h'.failed = h.failed ∧ Q a h') ∨
    (∃ e h', x = (.error e, h') ∧ OutOfMemory e ∧ Step R h h' ∧ h.failed < h'.failed) := by
  subst hm
  rcases x with ⟨r, h'⟩
  cases r with
  | ok b =>
    obtain ⟨e, st, hf, q⟩ := p
    cases e
    exact Or.inl ⟨h', rfl, st, hf, q⟩
  | error e =>
    right
    cases e with
    | badFree => exact p.elim
    | badAlloc => exact ⟨_, h', rfl, Or.inl rfl, p.1, p.2⟩
    | prog e =>
      obtain ⟨st, ⟨o, _⟩ | ⟨rfl, hf⟩⟩ := p
      · cases o
      · exact ⟨_, h', rfl, Or.inr rfl, st, hf⟩

theorem Has.sub_base {b : Blk} (a : Has h0 L h) (h1 : 1 ≤ h0.live b) (h2 : b.bytes ≤ h0.total) : Has (h0.sub b) L (h.sub b) := by
  refine ⟨fun x => ?_, ?_⟩
  · simp only [Heap.sub, a.live]
    split
    · rename_i e; subst e; omega
    · rfl
  · simp only [Heap.sub, a.total]; omega

/-- the roles of the blocks requested before the release of the text -/
def RF (r : Role) : Prop := RT r ∨ r = .ptrs ∨ r = .packed ∨ r = .words

/-- the heap without the text, if the callee has to release it -/
def withoutText (freeT : Bool) (T : Mem Nat) (h : Heap) : Heap := if freeT then h.sub ⟨.text, T.size⟩ else h

/-- the largest amount of memory in use -/
def peakBound (h : Heap) (n : Nat) : Nat := max h.peak (h.total + 58 * n + 70600000)

theorem qbytes_le {w : Nat} (hw : w ≤ 63) : qbytes w ≤ 8128 := by
  unfold qbytes
  show 24 + (32 + (QSIZ * w / 64 + 1) * 8) ≤ 8128
  have : QSIZ = 1024 := rfl
  rw [this]
  omega

/-- the first request of the second part is for the suffix array -/
theorem finishH_sa {w : World} {s : Mem Nat} {T1 : PackedArray} {ct : Container} {o : Option BwtResult} (ef : finish w s T1 ct = .ok o)
    (ho : o ≠ none) (hav : ∀ k b, b.role = .sa → h.av k b = false) : ∃ h', finishH w s T1 ct h = (.error .badAlloc, h') := by
  have key : ∀ (S : Type) [SaStore S] [SaBlocks S] (ht : HashTable), SaBlocks.parts S ≠ [] →
      ∃ h', someH (branchH S w s T1 ht ct) h = (.error .badAlloc, h') := by
    intro S _ _ ht hS
    unfold someH branchH
    rw [H.bind_def, H.bind_def]
    unfold arrBlks
    cases hp : SaBlocks.parts S with
    | nil => exact absurd hp hS
    | cons p l =>
      rw [List.map_cons]
      unfold newAllH
      rw [H.bind_def]
      unfold newB
      rw [if_pos (by rfl), if_neg (by rw [hav _ _ rfl]; simp)]
      exact ⟨_, rfl⟩
  unfold finish at ef
  unfold finishH
  cases hh : ct.hashtable with
  | none => rw [hh] at ef; cases ef
  | some ht =>
    rw [hh] at ef
    simp only at ef ⊢
    cases hb : positionOfMsb (if ct.saMax < ct.numSubs + 2 then ct.numSubs + 2 else ct.saMax) with
    | error e => rw [hb] at ef; cases ef
    | ok bits =>
      rw [hb, ok_bind] at ef
      show ∃ h', (if bits < 32 then someH (branchH S32 w s T1 ht ct)
        else if bits < 40 then someH (branchH S40 w s T1 ht ct)
        else if bits < 48 then someH (branchH S48 w s T1 ht ct)
        else if bits < 56 then someH (branchH S56 w s T1 ht ct)
        else if bits < 64 then someH (branchH S64 w s T1 ht ct)
        else pure none : H (Option BwtResult)) h = (.error .badAlloc, h')
      by_cases h1 : bits < 32
      · rw [if_pos h1]; exact key S32 ht (by simp [SaBlocks.parts])
      rw [if_neg h1]
      rw [if_neg h1] at ef
      by_cases h1 : bits < 40
      · rw [if_pos h1]; exact key S40 ht (by simp [SaBlocks.parts])
      rw [if_neg h1]
      rw [if_neg h1] at ef
      by_cases h1 : bits < 48
      · rw [if_pos h1]; exact key S48 ht (by simp [SaBlocks.parts])
      rw [if_neg h1]
      rw [if_neg h1] at ef
      by_cases h1 : bits < 56
      · rw [if_pos h1]; exact key S56 ht (by simp [SaBlocks.parts])
      rw [if_neg h1]
      rw [if_neg h1] at ef
      by_cases h1 : bits < 64
      · rw [if_pos h1]; exact key S64 ht (by simp [SaBlocks.parts])
      rw [if_neg h1] at ef
      cases ef
      exact absurd rfl ho

/-- What a call with at least three bytes can do (proof helper). -/
inductive Outcome (w : World) (T : Mem Nat) (n : Nat) (freeT : Bool) (h : Heap) :
    Except HErr (Option BwtResult × Option (Mem Nat)) × Heap → Prop
  | first (hav : h.av h.reqs containerBlk = false) : Outcome w T n freeT h (.error .badAlloc, h.refused)
  | front (e : HErr) (h' : Heap) (he : OutOfMemory e) (hf : h.failed < h'.failed)
      (why : ∃ k b, RF b.role ∧ h.av k b = false) (hfirst : h.av h.reqs containerBlk = true)
      (text : ∀ m, h'.live ⟨.text, m⟩ = h.live ⟨.text, m⟩)
      (cont : ∀ m, h'.live ⟨.container, m⟩ = (h.got containerBlk).live ⟨.container, m⟩) : Outcome w T n freeT h (.error e, h')
  | back (e : HErr) (h' : Heap) (he : OutOfMemory e) (hf : h.failed < h'.failed)
      (why : ∃ k b, RB b.role ∧ h.av k b = false) (hfirst : h.av h.reqs containerBlk = true)
      (text : ∀ m, h'.live ⟨.text, m⟩ = (withoutText freeT T h).live ⟨.text, m⟩)
      (cont : ∀ m, h'.live ⟨.container, m⟩ = (h.got containerBlk).live ⟨.container, m⟩)
      (sa : (∀ k b, b.role = .sa → h.av k b = false) → e = .badAlloc) : Outcome w T n freeT h (.error e, h')
  | done (r : BwtResult) (h' : Heap) (hr : bwtIs w T n freeT = .ok (some r, release freeT T)) (hf : h'.failed = h.failed)
      (has : HL (withoutText freeT T h) [resultBlk, bwtBlk n] (peakBound h n) h')
      (sa : ¬ ∀ k b, b.role = .sa → h.av k b = false) (hav : h'.av = h.av) :
      Outcome w T n freeT h (.ok (some r, release freeT T), h')

theorem bwtIsH_outcome (w : World) {T : Mem Nat} {n : Nat} (I : Input T n) (hL : LenOK w.junk T.data n) (hS : SortsOK w.sorter)
    (freeT : Bool) (hres : ∃ r, bwtIs w T n freeT = .ok (some r, release freeT T)) (h : Heap) (hT : freeT = true → 1 ≤ h.live ⟨.text, T.size⟩ ∧ T.size ≤ h.total) :
    Outcome w T n freeT h (bwtIsH w T n freeT h) := by
  obtain ⟨ct0, ht0, s, ct, ht, str, Rk, T1, e1, X, e2, e3, rdy, hu⟩ := stages_spec I hL hS w.pj w.tj w.sj
  obtain ⟨r, eb⟩ := hres
  have hn := I.nlt
  have hn3 := I.n3
  have hlms := lmsN_le (T := T.data) (n := n) (by omega)
  obtain ⟨P, hP⟩ : ∃ P, P = peakBound h n := ⟨_, rfl⟩
  have hPt : h.total + 58 * n + 70600000 ≤ P := by rw [hP]; exact Nat.le_max_right _ _
  have hPp : h.peak ≤ P := by rw [hP]; exact Nat.le_max_left _ _
  have hfin : finish w s T1 ct = .ok (some r) := by
    unfold bwtIs at eb
    rw [e1, ok_bind, e2, ok_bind, e3, ok_bind] at eb
    cases hx : finish w s T1 ct with
    | error x => rw [hx] at eb; cases eb
    | ok v => rw [hx] at eb; cases eb; rfl
  unfold bwtIsH
  rw [H.bind_def]
  unfold newB
  rw [if_pos (by rfl)]
  by_cases c0 : h.av h.reqs containerBlk = true
  swap
  · rw [if_neg c0]
    exact .first (by simpa using c0)
  rw [if_pos c0]
  simp only
  have a1 : HL h [containerBlk] P (h.got containerBlk) := by
    refine ⟨(Has.nil h).got containerBlk, ?_⟩
    show max h.peak (h.total + 12472) ≤ P
    omega
  -- failures of the first part
  have fail1 : ∀ (e : HErr) (h' : Heap), OutOfMemory e → Step RF (h.got containerBlk) h' → (h.got containerBlk).failed < h'.failed →
      Outcome w T n freeT h (.error e, h') := by
    intro e h' he st hf
    refine .front e h' he hf ?_ c0 ?_ ?_
    · obtain ⟨k, b, x1, x2⟩ := st.why hf
      exact ⟨k, b, x1, x2⟩
    · intro m
      rw [st.keep _ (Or.inl rfl)]
      simp [Heap.got, Heap.add]
    · intro m
      exact st.keep _ (Or.inr rfl)
  -- extract_LMS_strings
  rw [H.bind_def]
  rcases Post.cases e1 (extractRestH_post (R := RF) (junk := w.junk) (T := T) (n := n) (fun r hr => Or.inl hr) a1) with
    ⟨h2, x2, st2, f2, o2⟩ | ⟨e, h2, x2, he, st2, f2⟩
  swap
  · rw [x2]; exact fail1 e h2 he st2 f2
  rw [x2]
  simp only
  unfold CtOwn at o2
  rw [X.htab] at o2
  simp only at o2
  -- sort_LMS_strings
  have hhe := headEnd_le X
  have hll := HashTable.calculateLenlen_eq (m := ct0.headEnd + 1) (by omega) (by omega)
  rw [H.bind_def]
  rcases Post.cases e2 (sortLMSH_post (R := RF) (sorter := w.sorter) (pj := w.pj) (junk := w.junk) (T := T)
      (fun r hr => Or.inl hr) (Or.inr (Or.inl rfl)) X.htab hll o2) with ⟨h3, x3, st3, f3, ht', hx3, o3⟩ | ⟨e, h3, x3, he, st3, f3⟩
  swap
  · rw [x3]; exact fail1 e h3 he (st2.trans st3) (by omega)
  rw [x3]
  simp only at hx3 ⊢
  have ehe : ht' = ht := by
    have := rdy.sorted.htab
    rw [hx3] at this
    cases this; rfl
  subst ehe
  have hnu : ct.numUnique = ct0.numUnique := hu
  obtain ⟨hcap, hbsz⟩ := rdy.sorted.cap
  have hule := rdy.ule
  have hnum := rdy.num
  have hnn := rdy.nn
  rw [← hnu] at o3
  have hptr : (ptrsBlk ct.numUnique).bytes = 8 * ct.numUnique + 16 := by
    show (ct.numUnique + 2) * 8 = _; omega
  have hlb : lbytes (tabL 67777 ++ [ptrsBlk ct.numUnique, containerBlk]) = 16 * 67777 + 64 + (8 * ct.numUnique + 16 + 12472) := by
    rw [lbytes_append, lbytes_tabL, lbytes_cons, hptr]; rfl
  have a3 : HL h (bufL ht'.bufsize ++ (tabL 67777 ++ [ptrsBlk ct.numUnique, containerBlk])) P h3 := by
    refine ⟨o3.has, ?_⟩
    have := o3.peak
    rw [hlb] at this
    omega
  -- create_shortened_string
  obtain ⟨bits, hbits, _, hb64, _, _⟩ := Tot_iff.1 (positionOfMsb_spec (ct.numUnique + 1) (by omega) (by omega))
  have hwords : ∀ b, b ≤ 64 → (wordsBlk (ct.numSubs + 2) b).bytes ≤ 8 * (ct.numSubs + 3) := by
    intro b hb
    show ((ct.numSubs + 2) * b / 64 + 1) * 8 ≤ _
    have : (ct.numSubs + 2) * b / 64 ≤ ct.numSubs + 2 := by
      apply Nat.div_le_of_le_mul
      have := Nat.mul_le_mul_left (ct.numSubs + 2) hb
      omega
    omega
  have hwb := hwords bits hb64
  rw [H.bind_def]
  rcases Post.cases e3 (createShortenedH_post (R := RF) (tj := w.tj) (sj := w.sj) (T := T) (n := n)
      (Or.inr (Or.inr (Or.inl rfl))) (Or.inr (Or.inr (Or.inr rfl))) hx3 hbits a3 (by
        rw [lbytes_append, lbytes_bufL, hlb]; omega)) with ⟨h4, x4, st4, f4, a4⟩ | ⟨e, h4, x4, he, st4, f4⟩
  swap
  · rw [x4]; exact fail1 e h4 he ((st2.trans st3).trans st4) (by omega)
  rw [x4]
  simp only
  have st14 := (st2.trans st3).trans st4
  -- the release of the text
  obtain ⟨h5, x5, hav5, f5, live5, a5⟩ : ∃ h5, releaseH freeT T h4 = (.ok (release freeT T), h5) ∧ h5.av = h4.av ∧ h5.failed = h4.failed ∧
      (∀ b, b.role = .text ∨ b.role = .container → h5.live b = (withoutText freeT T (h.got containerBlk)).live b) ∧
      HL (withoutText freeT T h) (wordsBlk T1.length T1.bits :: packedBlk ::
        (bufL ht'.bufsize ++ (tabL 67777 ++ [ptrsBlk ct.numUnique, containerBlk]))) P h5 := by
    unfold releaseH whenH withoutText
    cases freeT with
    | false =>
      refine ⟨h4, rfl, rfl, rfl, ?_, a4⟩
      intro b hb
      exact st14.keep b hb
    | true =>
      obtain ⟨hT1, hT2⟩ := hT rfl
      have hl4 : 1 ≤ h4.live ⟨.text, T.size⟩ := by rw [a4.1.live]; omega
      refine ⟨h4.sub ⟨.text, T.size⟩, ?_, rfl, rfl, ?_, a4.1.sub_base hT1 hT2, a4.2⟩
      · simp only [if_true, H.bind_def, freeB]
        rw [if_pos (by rfl), if_pos hl4]
        rfl
      · intro b hb
        have := st14.keep b hb
        simp only [if_true, Heap.sub, this]
  rw [H.bind_def, x5]
  simp only
  -- the second part
  have hw1 : 1 ≤ ct.bwpWidth ∧ ct.bwpWidth ≤ 63 := by
    obtain ⟨mn, _, _, ⟨q1, q2, _⟩, _⟩ := rdy.sorted.base
    exact ⟨q1, q2⟩
  obtain ⟨L2, hL2⟩ : ∃ L2, L2 = bufL ht'.bufsize ++ (tabL 67777 ++ [containerBlk]) := ⟨_, rfl⟩
  have hlb2 : lbytes L2 = ht'.bufsize + (16 * 67777 + 64 + 12472) := by
    rw [hL2, lbytes_append, lbytes_bufL, lbytes_append, lbytes_tabL]; rfl
  have a5' : HL (withoutText freeT T h) (wordsBlk T1.length T1.bits :: packedBlk :: ptrsBlk ct.numUnique :: L2) P h5 := by
    refine ⟨a5.1.perm ?_, a5.2⟩
    rw [hL2, List.perm_iff_count]
    intro x
    simp only [List.count_cons, List.count_append, List.count_nil]
    omega
  have hwt : (withoutText freeT T h).total ≤ h.total := by
    unfold withoutText
    split
    · simp [Heap.sub]
    · exact Nat.le_refl _
  have hq := qbytes_le hw1.2
  have hqm : qmax (ct.numSubs + 1) * qbytes ct.bwpWidth ≤ 8 * (ct.numSubs + 1) + 12881000 := by
    refine le_trans (Nat.mul_le_mul_left _ hq) ?_
    unfold qmax
    omega
  have B : BB (withoutText freeT T h) L2 P ct :=
    ⟨hw1.1, hw1.2, by rw [hnum]; omega, by rw [hnum]; exact hule, by rw [hlb2, hnn]; omega⟩
  have hlenT : T1.length = ct.numSubs + 2 := by rw [rdy.short.len, hnum]
  have hsa : (∀ k b, b.role = .sa → h.av k b = false) → ∃ h', finishH w s T1 ct h5 = (.error .badAlloc, h') := by
    intro hav
    refine finishH_sa hfin (by simp) ?_
    rw [hav5, st14.av]
    exact hav
  have fail2 : ∀ (e : HErr) (h' : Heap), OutOfMemory e → Step RB h5 h' → h5.failed < h'.failed →
      ((∀ k b, b.role = .sa → h.av k b = false) → e = .badAlloc) →
      Outcome w T n freeT h (.error e, h') := by
    intro e h' he st hf hs
    have hf0 : (h.got containerBlk).failed = h.failed := rfl
    refine .back e h' he (by omega) ?_ c0 ?_ ?_ hs
    · obtain ⟨k, b, y1, y2⟩ := st.why hf
      refine ⟨k, b, y1, ?_⟩
      rw [hav5, st14.av] at y2
      exact y2
    · intro m
      rw [st.keep _ (Or.inl rfl), live5 _ (Or.inl rfl)]
      unfold withoutText
      split <;> simp [Heap.got, Heap.add, Heap.sub]
    · intro m
      rw [st.keep _ (Or.inr rfl), live5 _ (Or.inr rfl)]
      unfold withoutText
      split <;> simp [Heap.got, Heap.add, Heap.sub]
  rw [H.bind_def]
  rcases Post.cases hfin (finishH_post (R := RB) (w := w) (s := s) (fun r hr => hr) B hlenT rdy.short.wf.b64 a5') with
    ⟨h6, x6, st6, f6, a6⟩ | ⟨e, h6, x6, he, st6, f6⟩
  swap
  · rw [x6]
    refine fail2 e h6 he st6 f6 ?_
    intro hav
    obtain ⟨h', hh⟩ := hsa hav
    rw [x6] at hh
    cases hh
    rfl
  rw [x6]
  simp only
  have a6 := a6 r rfl
  -- the release of the container
  have a6' : HL (withoutText freeT T h) (bufL ht'.bufsize ++ (tabL ht'.htsize ++ [containerBlk, resultBlk, bwtBlk n])) P h6 := by
    refine ⟨a6.1.perm ?_, a6.2⟩
    rw [hL2, o3.size, hnn, List.perm_iff_count]
    intro x
    simp only [List.count_cons, List.count_append, List.count_nil]
    omega
  obtain ⟨h7, x7, f7, av7, a7⟩ : ∃ h7, deleteContainerH ct h6 = (.ok (), h7) ∧ h7.failed = h6.failed ∧ h7.av = h6.av ∧
      HL (withoutText freeT T h) [resultBlk, bwtBlk n] P h7 := by
    unfold deleteContainerH
    rw [rdy.sorted.htab]
    simp only
    rw [H.bind_def]
    rcases hd : deleteTableH ht' h6 with ⟨v, h7⟩
    have := deleteTableH_post (R := fun _ => False) a6'
    rw [hd] at this
    rcases Post.cases rfl this with ⟨h8, x8, st8, f8, a8⟩ | ⟨e, h8, x8, _, st8, f8⟩
    swap
    · obtain ⟨_, _, hF, _⟩ := st8.why f8
      exact hF.elim
    cases x8
    simp only
    unfold freeB
    rw [if_pos (by rfl), if_pos a8.1.pos]
    exact ⟨_, rfl, f8, st8.av, a8.1.sub, a8.2⟩
  rw [H.bind_def, x7]
  have hf0 : (h.got containerBlk).failed = h.failed := rfl
  refine .done r h7 eb (by omega) (hP ▸ a7) ?_ (by rw [av7, st6.av, hav5, st14.av]; rfl)
  intro hav
  obtain ⟨h', hh⟩ := hsa hav
  rw [x6] at hh
  cases hh

end
end Flbwt
