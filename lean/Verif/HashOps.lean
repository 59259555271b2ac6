import Verif.HashIns
import Mathlib.Data.List.Nodup

/-!
# `find_name`, `set_name` and the walk over the table
-/

namespace Flbwt
namespace HashTable

variable {ht : HashTable} {own : Nat → Tag} {ents : Nat → List (Nat × List Nat)} {E : Nat → Nat}

theorem Tab.owned {h i : Nat} (t : Tab ht own ents E) (hi : own i = .str h) : i < ht.buf.size := by
  rw [t.bufsz]; exact t.ownlt i (by rw [hi]; simp)

theorem Tab.head_ne (t : Tab ht own ents E) {h : Nat} (hh : h < ht.htsize) {x : Nat × List Nat} (hx : x ∈ ents h) :
    ht.head.data h ≠ 0 := by
  intro h0
  rw [(t.empty h hh h0).1] at hx
  simp at hx

theorem Tab.small64 (t : Tab ht own ents E) : ht.buf.size < 2 ^ 64 := by
  rw [t.bufsz]; exact Nat.lt_trans t.small (by decide)

theorem findName_absent (t : Tab ht own ents E) (T : Mem Nat) (m p : Nat) (hT : p + m ≤ T.size)
    (hn : ¬ Has ht ents (substr T p m)) : findName ht T m p = .error (.throw .runtimeError) := by
  have hhl := hashL_lt t.hts (substr T p m)
  unfold findName
  rw [hashFunction_eq _ _ _ _ t.hts hT, ok_bind, Mem.rd_ok _ (by rw [t.headsz]; exact hhl), ok_bind]
  have : whileM (ht.bufsize + 2) (ht.head.data (hashL ht.htsize (substr T p m))) (findStep ht.nameBytes ht.buf T m p) = .ok none := by
    by_cases h0 : ht.head.data (hashL ht.htsize (substr T p m)) = 0
    · rw [h0]
      simp only [whileM, findStep, if_neg (show ¬ (0 : Nat) ≠ 0 by omega), ok_bind]
    · exact (find_scan_spec hT (fun i hi => t.owned hi) t.small64 (t.chain _ hhl h0) (ht.bufsize + 2) (Or.inl (by rw [t.bufsz]; omega))).1 hn
  rw [this, ok_bind]

theorem findName_present (t : Tab ht own ents E) (T : Mem Nat) (m p q0 : Nat) (hT : p + m ≤ T.size)
    (hn : (q0, substr T p m) ∈ ents (hashL ht.htsize (substr T p m))) :
    findName ht T m p = getName ht.nameBytes ht.buf q0 := by
  have hhl := hashL_lt t.hts (substr T p m)
  unfold findName
  rw [hashFunction_eq _ _ _ _ t.hts hT, ok_bind, Mem.rd_ok _ (by rw [t.headsz]; exact hhl), ok_bind]
  have h0 := t.head_ne hhl hn
  rw [(find_scan_spec hT (fun i hi => t.owned hi) t.small64 (t.chain _ hhl h0) (ht.bufsize + 2) (Or.inl (by rw [t.bufsz]; omega))).2 q0 hn
    (t.nodup _ hhl)]
  cases getName ht.nameBytes ht.buf q0 <;> rfl

/-- What is known about a stored record. -/
structure Stored (ht : HashTable) (own : Nat → Tag) (q : Nat) (s : List Nat) : Prop where
  pos : q ≠ 0
  len : 3 ≤ s.length
  len64 : s.length < 2 ^ 64
  at_ : RecAt ht.buf q s
  bound : q + bodyLen s + ht.nameBytes ≤ ht.buf.size
  own_body : ∀ i, q ≤ i → i < q + bodyLen s → own i = .str (hashL ht.htsize s)
  own_name : ∀ j, j < ht.nameBytes → own (q + bodyLen s + j) = .name q

theorem Tab.stored (t : Tab ht own ents E) {h q : Nat} {s : List Nat} (hh : h < ht.htsize) (hx : (q, s) ∈ ents h) :
    Stored ht own q s := by
  obtain ⟨a1, a2, a3, a4, a5, a6, a7, a8⟩ := (t.chain h hh (t.head_ne hh hx)).mem hx
  obtain ⟨B, b1, b2, b3, b4⟩ := t.room h hh (t.head_ne hh hx)
  have := t.hash h hh _ hx
  subst this
  exact ⟨a1, a2, a3, a6, by rw [t.bufsz]; omega, a4, a5⟩

theorem Stored.getLength {q : Nat} {s : List Nat} (h : Stored ht own q s) : getLength ht.buf q = .ok s.length :=
  h.at_.getLength (by have := h.len; omega) h.len64 (by have := h.bound; omega)

theorem Stored.firstChar {q : Nat} {s : List Nat} (h : Stored ht own q s) :
    getFirstCharacterPointer ht.buf q = .ok (q + 2 + nb s.length) := by
  have := h.bound
  unfold getFirstCharacterPointer
  rw [Mem.rd_ok _ (by unfold bodyLen at this; omega), ok_bind, h.at_.1.1, show q + 1 + nb s.length + 1 = q + 2 + nb s.length by omega]

theorem Stored.getName_tot {q : Nat} {s : List Nat} (h : Stored ht own q s) : Tot (getName ht.nameBytes ht.buf q) (fun _ => True) := by
  have hb := h.bound
  unfold bodyLen at hb
  unfold getName
  rw [h.getLength, ok_bind, Mem.rd_ok _ (by omega), ok_bind, h.at_.1.1]
  refine loopUp_spec (fun _ _ => True) _ _ _ _ trivial ?_
  intro i x i1 i2 _
  simp only [Tot_bind, Mem.Tot_rd, Tot_ok, and_true]
  omega

theorem Stored.getName_eq {q x : Nat} {s : List Nat} (h : Stored ht own q s) (hNB : ht.nameBytes ≤ 8)
    (hx : x < 256 ^ ht.nameBytes) (hbe : BE ht.buf (q + bodyLen s) ht.nameBytes x) :
    getName ht.nameBytes ht.buf q = .ok x := by
  have hb := h.bound
  have := h.len
  unfold bodyLen at hb hbe
  apply HashTable.getName_eq h.at_.1 (by omega) h.len64 hNB hx (by omega)
  rwa [show q + 2 + nb s.length + s.length = q + (2 + nb s.length + s.length) by omega]

theorem setName_tab (t : Tab ht own ents E) {h q : Nat} {s : List Nat} (hh : h < ht.htsize) (hx : (q, s) ∈ ents h)
    (x : Nat) : Tot (setName ht.nameBytes ht.buf q x) (fun buf' => Tab { ht with buf := buf' } own ents E ∧
      BE buf' (q + bodyLen s) ht.nameBytes x ∧ (∀ i, own i ≠ .name q → buf'.data i = ht.buf.data i) ∧
      buf'.size = ht.buf.size) := by
  have st := t.stored hh hx
  have hb := st.bound
  have hl := st.len
  unfold bodyLen at hb
  refine (setName_tot ht.nameBytes x st.at_.1 (by omega) st.len64 (by omega)).mono ?_
  rintro buf' ⟨e1, e2, e3⟩
  have hfr : ∀ i, own i ≠ .name q → buf'.data i = ht.buf.data i := by
    intro i hi
    apply e3
    by_contra hc
    apply hi
    have := st.own_name (i - (q + bodyLen s)) (by unfold bodyLen; omega)
    rwa [show q + bodyLen s + (i - (q + bodyLen s)) = i by unfold bodyLen; omega] at this
  refine ⟨⟨t.hts, t.hb, t.restsz, t.headsz, by simpa [e1] using t.bufsz, t.small, t.ownlt, t.empty, ?_, t.room, t.hash, t.nodup⟩, ?_, hfr, e1⟩
  · intro h' hh' h0
    exact (t.chain h' hh' h0).frame (fun i hi => ⟨hi, hfr i (by rw [hi]; simp)⟩) (fun _ _ h => h)
  · rwa [show q + bodyLen s = q + 2 + nb s.length + s.length by unfold bodyLen; omega]

/-- All records in the order of the walk. -/
def allEnts (ents : Nat → List (Nat × List Nat)) (k : Nat) : List (Nat × List Nat) :=
  (List.range k).flatMap ents

theorem allEnts_succ (k : Nat) : allEnts ents (k + 1) = allEnts ents k ++ ents k := by
  simp [allEnts, List.range_succ]

theorem mem_allEnts {k : Nat} {x : Nat × List Nat} : x ∈ allEnts ents k ↔ ∃ h < k, x ∈ ents h := by
  simp [allEnts]

/-- storing a list of offsets at `s[j...]` -/
def PutAt (s s' : Mem Nat) (j : Nat) (l : List Nat) : Prop :=
  s'.size = s.size ∧ (∀ k, k < l.length → s'.data (j + k) = l.getD k 0) ∧
  ∀ i, (i < j ∨ j + l.length ≤ i) → s'.data i = s.data i

theorem PutAt.nil (s : Mem Nat) (j : Nat) : PutAt s s j [] := ⟨rfl, by simp, fun _ _ => rfl⟩

theorem PutAt.append {s s1 s2 : Mem Nat} {j : Nat} {l l' : List Nat} (h : PutAt s s1 j l)
    (h' : PutAt s1 s2 (j + l.length) l') : PutAt s s2 j (l ++ l') := by
  obtain ⟨a1, a2, a3⟩ := h
  obtain ⟨b1, b2, b3⟩ := h'
  refine ⟨b1.trans a1, ?_, ?_⟩
  · intro k hk
    rw [List.length_append] at hk
    by_cases hkl : k < l.length
    · rw [b3 _ (by omega), a2 k hkl]
      simp [List.getD, List.getElem?_append_left hkl]
    · have := b2 (k - l.length) (by omega)
      rw [show j + l.length + (k - l.length) = j + k by omega] at this
      rw [this]
      simp [List.getD, List.getElem?_append_right (show l.length ≤ k by omega)]
  · intro i hi
    rw [List.length_append] at hi
    rw [b3 _ (by omega), a3 _ (by omega)]

section
variable {NB : Nat} {buf : Mem Nat} {P : Nat → Prop} {PN : Nat → Nat → Prop}

theorem collect_scan (hP : ∀ i, P i → i < buf.size) (hsm : ∀ i, P i → i < 2 ^ 64) {q e : Nat} {L : List (Nat × List Nat)}
    (h : Chain NB buf P PN q L e) : ∀ (fuel : Nat) (s : Mem Nat) (j : Nat), Enough buf.size q L fuel →
      j + L.length ≤ s.size → Tot (whileM fuel (q, s, j) (collectStep NB buf)) (fun st =>
        PutAt s st.1 j (L.map Prod.fst) ∧ st.2 = j + L.length) := by
  induction h with
  | nil q h0 h1 =>
    intro fuel s j hf hj
    have hq := hP q (h1 q (by omega) (by omega)).1
    obtain ⟨f, rfl⟩ := hf.nil hq
    have hl : getLength buf q = .ok 0 := by
      unfold getLength
      rw [Mem.rd_ok _ hq, ok_bind, (h1 q (by omega) (by omega)).2, if_pos rfl]
    simp only [whileM, collectStep, if_pos h0, hl, ok_bind, if_true, Tot_ok]
    exact ⟨PutAt.nil _ _, rfl⟩
  | cons q s' L e g0 g1 g2 g3 g4 g5 g6 ih =>
    intro fuel s j hf hj
    have hsz : q + bodyLen s' ≤ buf.size := by
      have := hP _ (g3 (q + bodyLen s' - 1) (by unfold bodyLen; omega) (by unfold bodyLen; omega))
      omega
    obtain ⟨f, rfl, hf'⟩ := hf.cons (q' := q + bodyLen s' + NB) (by unfold bodyLen at hsz; omega) (by unfold bodyLen; omega)
    have hl := g5.getLength (by omega) g2 hsz
    have hle := g6.le.1
    have hend := g6.end_lt hsm
    have hi := g5.stringInfoLength s'.length NB hsz (by unfold bodyLen at hle; omega)
    have hq' : addU64 q (1 + 1 + (nb s'.length + s'.length + NB)) = q + bodyLen s' + NB := by
      unfold bodyLen at hle ⊢
      rw [addU64_eq (by omega)]; omega
    rw [List.length_cons] at hj
    simp only [whileM, collectStep, if_pos g0, hl, ok_bind, if_neg (show ¬ s'.length = 0 by omega),
      if_neg (show ¬ s'.length = 2 by omega), Mem.wr_ok s (i := j) q (by omega), hi, hq']
    refine (ih f (s.upd j q) (j + 1) hf' (by simpa using by omega)).mono ?_
    rintro ⟨s2, j2⟩ ⟨a, b⟩
    refine ⟨?_, by simp only [List.length_cons] at b ⊢; omega⟩
    have h1 : PutAt s (s.upd j q) j [q] := by
      refine ⟨rfl, ?_, ?_⟩
      · intro k hk
        have : k = 0 := by simpa using hk
        subst this
        simp
      · intro i hi; rw [List.length_singleton] at hi; exact Mem.upd_data_ne _ _ (by omega)
    exact h1.append a
  | jump q x L e g0 g1 g2 g3 g4 g5 gh ih =>
    intro fuel s j hf hj
    have hsz : q + 10 ≤ buf.size := by
      have := hP _ (g3 (q + 9) (by omega) (by omega))
      omega
    obtain ⟨f, rfl, hf'⟩ := hf.jump (by omega) (by omega) gh
    simp only [whileM, collectStep, if_pos g0, g4.getLength hsz, ok_bind, if_neg (show ¬ (2 : Nat) = 0 by omega),
      if_true, getPointer_eq g4 g2 hsz]
    exact ih f s j hf' hj

end

/-- The walk works on any buffer that extends the table's buffer (src/flbwt.cpp:394 enlarges it first). -/
theorem collect_tot (t : Tab ht own ents E) (s : Mem Nat) (j : Nat)
    (hj : j + (allEnts ents ht.htsize).length ≤ s.size) (ht' : HashTable) (h1 : ht'.htsize = ht.htsize)
    (h2 : ht'.head = ht.head) (h3 : ht'.nameBytes = ht.nameBytes) (h4 : ht.buf.size ≤ ht'.buf.size)
    (h5 : ∀ i, i < ht.buf.size → ht'.buf.data i = ht.buf.data i) :
    Tot (collect ht' s j) (fun st => PutAt s st.1 j ((allEnts ents ht.htsize).map Prod.fst) ∧
      st.2 = j + (allEnts ents ht.htsize).length) := by
  unfold collect
  rw [h1, h2, h3]
  have hmono : ∀ k, k ≤ ht.htsize → (allEnts ents k).length ≤ (allEnts ents ht.htsize).length := by
    intro k hk
    obtain ⟨d, hd⟩ : ∃ d, ht.htsize = k + d := ⟨ht.htsize - k, by omega⟩
    rw [hd]
    clear hd hk
    induction d with
    | zero => exact Nat.le_refl _
    | succ d ih => rw [show k + (d + 1) = k + d + 1 by omega, allEnts_succ, List.length_append]; omega
  have := loopUp_spec (fun k (st : Mem Nat × Nat) => PutAt s st.1 j ((allEnts ents k).map Prod.fst) ∧
    st.2 = j + (allEnts ents k).length) 0 ht.htsize (s, j) (fun i st => do
    let p ← ht.head.rd i
    whileM (ht'.buf.size + 2) (p, st.1, st.2) (collectStep ht.nameBytes ht'.buf))
    ⟨by simpa [allEnts] using PutAt.nil s j, by simp [allEnts]⟩ (by
    rintro k ⟨s1, j1⟩ _ k2 ⟨a, b⟩
    simp only at a b
    subst b
    have hk : k < ht.htsize := by omega
    have hm := hmono (k + 1) (by omega)
    rw [allEnts_succ, List.length_append] at hm
    simp only [Tot_bind, Mem.Tot_rd]
    refine ⟨by rw [t.headsz]; exact hk, ?_⟩
    rw [allEnts_succ, List.map_append, List.length_append]
    by_cases h0 : ht.head.data k = 0
    · rw [h0]
      simp only [whileM, collectStep, if_neg (show ¬ (0 : Nat) ≠ 0 by omega), ok_bind, Tot_ok]
      rw [(t.empty k hk h0).1]
      simpa using a
    · have hc := (t.chain k hk h0).frame (buf' := ht'.buf) (P' := fun i => own i = .str k) (PN' := fun q i => own i = .name q)
        (fun i hi => ⟨hi, h5 i (t.owned hi)⟩) (fun _ _ h => h)
      refine (collect_scan (fun i hi => lt_of_lt_of_le (t.owned hi) h4) (fun i hi => lt_trans (t.owned hi) t.small64) hc (ht'.buf.size + 2) s1
        (j + (allEnts ents k).length) (Or.inl (by omega)) (by rw [a.1]; omega)).mono ?_
      rintro ⟨s2, j2⟩ ⟨c, d⟩
      refine ⟨a.append (by simpa using c), by simp only at d ⊢; omega⟩)
  simpa using this

/-- Different records of the table are at different offsets and hold different strings. -/
theorem Tab.inj (t : Tab ht own ents E) (hNB : 1 ≤ ht.nameBytes) {x y : Nat × List Nat} (hx : x ∈ allEnts ents ht.htsize)
    (hy : y ∈ allEnts ents ht.htsize) : (x.1 = y.1 ↔ x = y) ∧ (x.2 = y.2 ↔ x = y) := by
  obtain ⟨h, hh, hx⟩ := mem_allEnts.1 hx
  obtain ⟨h', hh', hy⟩ := mem_allEnts.1 hy
  have e1 := t.hash h hh x hx
  have e2 := t.hash h' hh' y hy
  have inj2 : x.2 = y.2 → x = y := by
    intro e
    rw [e, e2] at e1
    subst e1
    exact List.inj_on_of_nodup_map (t.nodup _ hh') hx hy e
  refine ⟨⟨fun e => ?_, fun e => by rw [e]⟩, ⟨inj2, fun e => by rw [e]⟩⟩
  have s1 := t.stored (q := x.1) (s := x.2) hh hx
  have s2 := t.stored (q := y.1) (s := y.2) hh' hy
  have g1 := s1.getLength
  rw [e, s2.getLength] at g1
  have hl : y.2.length = x.2.length := by injection g1
  apply inj2
  apply List.ext_getElem hl.symm
  intro j j1 j2
  have r1 := s1.at_.2.2 j j1
  have r2 := s2.at_.2.2 j j2
  rw [e, ← hl, r2] at r1
  simpa [List.getD, j1, j2] using r1.symm

theorem Tab.nodup_all (t : Tab ht own ents E) : ((allEnts ents ht.htsize).map Prod.snd).Nodup := by
  have : ∀ k, k ≤ ht.htsize → ((allEnts ents k).map Prod.snd).Nodup := by
    intro k
    induction k with
    | zero => intro _; simp [allEnts]
    | succ k ih =>
      intro hk
      rw [allEnts_succ, List.map_append, List.nodup_append]
      refine ⟨ih (by omega), t.nodup k (by omega), ?_⟩
      intro a ha b hb hab
      subst hab
      obtain ⟨x, hx, hxa⟩ := List.mem_map.1 ha
      obtain ⟨y, hy, hyb⟩ := List.mem_map.1 hb
      obtain ⟨h, hh, hx⟩ := mem_allEnts.1 hx
      have e1 := t.hash h (by omega) x hx
      have e2 := t.hash k (by omega) y hy
      rw [hxa] at e1
      rw [hyb] at e2
      omega
  exact this _ (Nat.le_refl _)

theorem Tab.has_iff (t : Tab ht own ents E) (s : List Nat) : Has ht ents s ↔ s ∈ (allEnts ents ht.htsize).map Prod.snd := by
  unfold Has
  constructor
  · intro h
    obtain ⟨x, hx, rfl⟩ := List.mem_map.1 h
    exact List.mem_map.2 ⟨x, mem_allEnts.2 ⟨_, hashL_lt t.hts _, hx⟩, rfl⟩
  · intro h
    obtain ⟨x, hx, rfl⟩ := List.mem_map.1 h
    obtain ⟨k, hk, hx⟩ := mem_allEnts.1 hx
    rw [t.hash k hk x hx]
    exact List.mem_map.2 ⟨x, hx, rfl⟩

end HashTable
end Flbwt
