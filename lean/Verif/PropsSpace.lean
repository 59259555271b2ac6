import Verif.PropsTop
import Verif.PropsHash

/-!
# Property C44 (size of the hash table buffer)
-/

namespace Flbwt

open HashTable (ok_bind)

namespace HashTable

/-- What the new strings of a history account for: twice the length plus a constant for each string that was not in the
table yet. -/
def HOp.weight (seen : List (List Nat)) : List HOp → Nat
  | [] => 0
  | .insert s :: ops => (if s ∈ seen then 0 else 2 * s.length + 48) + HOp.weight (s :: seen) ops
  | .find _ :: ops => HOp.weight seen ops

theorem insert_space (junk : Fresh) {ht : HashTable} {seen : List (List Nat)} (g : Good ht seen)
    (hr : ∀ h, h < ht.htsize → ht.rest.data h ≤ 512) (s : List Nat)
    (h3 : 3 ≤ s.length) (hj : s.length % 256 ≠ 0 ∨ ∀ i, junk i % 256 = 0) (hsp : junk.Room (ht.bufsize + 530 + s.length)) :
    Tot (insertString junk ht (ofList s) s.length 0) (fun r => r.1.htsize = ht.htsize ∧
      (∀ h, h < r.1.htsize → r.1.rest.data h ≤ 512) ∧
      r.1.bufsize + restSum ht ≤ ht.bufsize + restSum r.1 + if s ∈ seen then 0 else 2 * s.length + 48) := by
  obtain ⟨own, ents, E, t, hset, hN1, hN8⟩ := g
  have hsub := substr_ofList s
  have hnb : nb s.length ≤ 8 := nb_le8 (by omega) (by
    have : (2 : Nat) ^ 63 < 2 ^ 64 := by norm_num
    omega)
  have hb : bodyLen s = 2 + nb s.length + s.length := rfl
  have := insertString_tot t junk (ofList s) s.length 0 (by simp [ofList]) h3 (by rw [hsub]; omega)
    (hj.imp id (fun h i _ => h i))
  rw [hsub] at this
  refine this.mono ?_
  rintro ⟨ht', r⟩ (⟨a, b, c, _, d⟩ | ⟨a, b, own', ents', E', q, t', ad⟩)
  · simp only at b d
    subst d
    refine ⟨rfl, hr, ?_⟩
    show ht.bufsize + restSum ht ≤ ht.bufsize + restSum ht + _
    omega
  · have hin : s ∉ seen := fun h => a ((hset s).2 h)
    have hg := ad.grow
    refine ⟨ad.htsize, ad.rest hr, ?_⟩
    rw [if_neg hin]
    simp only at hg ⊢
    omega

theorem execs_space (junk : Fresh) (ops : List HOp) : ∀ (ht : HashTable) (seen : List (List Nat)), Good ht seen →
    (∀ h, h < ht.htsize → ht.rest.data h ≤ 512) →
    junk.Room (ht.bufsize + HOp.need ops) → (∀ op ∈ ops, op.okFor junk) →
    Tot (HOp.execs junk ht ops) (fun r => r.1.htsize = ht.htsize ∧ (∀ h, h < r.1.htsize → r.1.rest.data h ≤ 512) ∧
      r.1.bufsize + restSum ht ≤ ht.bufsize + restSum r.1 + HOp.weight seen ops ∧
      r.1.buf.size = r.1.bufsize) := by
  induction ops with
  | nil =>
    intro ht seen g hr _ _
    obtain ⟨_, _, _, t, _⟩ := g
    simpa [HOp.execs, HOp.weight, t.bufsz] using hr
  | cons op ops ih =>
    intro ht seen g hr hn hok
    have hok' := fun o ho => hok o (List.mem_cons_of_mem _ ho)
    have hop := hok op List.mem_cons_self
    cases op with
    | insert s =>
      obtain ⟨h3, hj⟩ := hop
      simp only [HOp.need] at hn
      simp only [HOp.execs, HOp.exec, Tot_bind]
      obtain ⟨⟨ht', r⟩, e, g', _, hb, _⟩ := Tot_iff.1 (insert_good junk g s h3 hj (by omega))
      have hs := (insert_space junk g hr s h3 hj (by omega))
      rw [e] at hs ⊢
      simp only [Tot_ok] at hs ⊢
      obtain ⟨s1, s2, s3⟩ := hs
      simp only at g' hb s1 s2 s3
      refine (ih ht' (s :: seen) g' s2 (by omega) hok').mono ?_
      rintro ⟨ht2, outs⟩ ⟨a1, a2, a3, a4⟩
      simp only at a1 a2 a3 a4
      refine ⟨by simp only; omega, a2, ?_, a4⟩
      simp only [HOp.weight]
      omega
    | find s =>
      simp only [HOp.need] at hn
      have key : ∃ o, HOp.exec junk ht (.find s) = .ok (ht, o) := by
        have := execs_good junk [.find s] ht seen g (by simp only [HOp.need]; omega) (by simpa using hop)
        simp only [HOp.execs, HOp.exec] at this ⊢
        cases hf : findName ht (ofList s) s.length 0 with
        | ok x => exact ⟨.found, rfl⟩
        | error e =>
          rw [hf] at this
          cases e with
          | ub f => exact this.elim
          | throw x =>
            cases x with
            | runtimeError => exact ⟨.notFound, rfl⟩
            | invalidArgument => exact this.elim
      obtain ⟨o, key⟩ := key
      simp only [HOp.execs, key, ok_bind, Tot_bind, Tot_ok]
      exact ih ht seen g hr (by omega) hok'

/-- **C44** (table) After any history of insertions and searches the buffer is at most 512 bytes per bucket plus
`2·length + 48` bytes for every different string inserted. -/
theorem C44_table_space (size n : Nat) (h0 : 0 < size) (hn : n < 2 ^ 64) (junk : Fresh)
    (ops : List HOp) (hok : ∀ op ∈ ops, op.okFor junk) (hmem : junk.Room (HOp.need ops)) :
    Tot (do let ht ← HashTable.new size n; HOp.execs junk ht ops) (fun r =>
      r.1.buf.size ≤ 512 * size + HOp.weight [] ops) := by
  obtain ⟨ht, e, t, a1, a2, _, a3, _, a5, a6⟩ := Tot_iff.1 (new_tab size n h0 hn)
  rw [e, ok_bind]
  have hr : ∀ h, h < ht.htsize → ht.rest.data h ≤ 512 := fun h hh => by rw [(t.empty h hh (a3 h)).2]; omega
  have g : Good ht [] := ⟨_, _, _, t, by simp [Has], a5, a6⟩
  have h1 := execs_space junk ops ht [] g hr (by omega) hok
  obtain ⟨⟨ht', o⟩, e', hs1, hs2, hs3, hs4⟩ := Tot_iff.1 h1
  rw [e', Tot_ok]
  have := restSum_le hs2
  rw [hs1, a1] at this
  simp only at this hs3 hs4 ⊢
  omega

-- 3 different strings (one inserted twice), table of 2 buckets: at most 512 · 2 + 54 + 56 + 58 bytes
example : HOp.weight [] [.insert [1, 2, 3], .insert [3, 2, 1, 0], .find [9], .insert [1, 2, 3], .insert [5, 5, 5, 5, 5]] =
    54 + 56 + 58 := by decide

end HashTable

/-- **C44** In the call on a string of `n` bytes the buffer of the hash table, including the records of the head and of
the end, never has more than `27·n + 34701855` bytes (it only grows, and this is its final size). -/
theorem C44_buffer_linear {junk : Fresh} {pj : Nat → Nat} {sorter : Sorter} {T : Mem Nat} {s : List Nat} (g : GoodCall junk sorter T s) :
    ∃ ct0 p ct ht0 ht, extractLMS junk T s.length = .ok ct0 ∧ sortLMS sorter pj junk T ct0 = .ok (p, ct) ∧
    ct0.hashtable = some ht0 ∧ ct.hashtable = some ht ∧ ht0.buf.size ≤ ht.buf.size ∧
    ht.buf.size ≤ 27 * s.length + 34701855 := by
  obtain ⟨ct0, e1, ht0, X⟩ := Tot_iff.1 (extractLMS_spec g.inp g.len.lms)
  obtain ⟨⟨p, ct⟩, e2, ht, str, H⟩ := Tot_iff.1 (sortLMS_spec g.inp g.len g.sort pj X)
  obtain ⟨own, ents, E, t, _⟩ := X.hok.tab
  have := H.cap.1
  refine ⟨ct0, p, ct, ht0, ht, e1, e2, X.htab, H.htab, ?_, by omega⟩
  have h1 := H.grow
  rw [t.bufsz]
  exact h1 ht0 X.htab

example : ∃ ct0 p ct ht0 ht, extractLMS ⟨fun i => 2 * i + 1, 40000000⟩ (cString banana) 6 = .ok ct0 ∧
    sortLMS insSort (fun _ => 0) ⟨fun i => 2 * i + 1, 40000000⟩ (cString banana) ct0 = .ok (p, ct) ∧
    ct0.hashtable = some ht0 ∧ ct.hashtable = some ht ∧ ht0.buf.size ≤ ht.buf.size ∧ ht.buf.size ≤ 27 * 6 + 34701855 :=
  C44_buffer_linear banana_good

end Flbwt
