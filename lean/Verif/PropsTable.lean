import Verif.PropsHash

/-!
# Properties C72, C73, C74 (the hash table under arbitrary histories, its documented record layout, a table without slots)
-/

namespace Flbwt
namespace HashTable

/-! ## C72: any interleaving of `insert_string`, `set_name` and `find_name` -/

/-- The calls: `insert_string(|s|, s)`; `set_name(r, x)` for the record `r` holding `s`, found by walking over the table as
src/flbwt.cpp:400-419 does; `find_name(|s|, s)`. -/
inductive TOp where
  | insert (s : List Nat) | name (s : List Nat) (x : Nat) | find (s : List Nat)

/-- Observable results: the status of `insert_string`; nothing (`set_name`); the name returned by `find_name`; the exception
`std::runtime_error` thrown by it. -/
inductive TOut where
  | status (r : Nat) | done | found (x : Nat) | notFound
  deriving DecidableEq

/-- `set_name(ptrs[k], x)` for every `k < cnt` whose record holds `s`; the record is read with `get_length` and
`get_first_character_pointer`. -/
def nameAt (nameBytes : Nat) (ptrs : Mem Nat) (cnt : Nat) (s : List Nat) (x : Nat) (buf : Mem Nat) : M (Mem Nat) :=
  loopUp 0 cnt buf fun k buf => do
    let q ← ptrs.rd k
    let str ← readString buf q
    if str = s then setName nameBytes buf q x else .ok buf

/-- One call; `arr` is the array the walk stores the record pointers in. -/
def TOp.exec (junk : Fresh) (arr : Mem Nat) (ht : HashTable) : TOp → M (HashTable × TOut)
  | .insert s => do
    let r ← insertString junk ht (ofList s) s.length 0
    .ok (r.1, .status r.2)
  | .name s x => do
    let r ← collect ht arr 0
    let buf ← nameAt ht.nameBytes r.1 r.2 s x ht.buf
    .ok ({ ht with buf := buf }, .done)
  | .find s =>
    match findName ht (ofList s) s.length 0 with
    | .ok x => .ok (ht, .found x)
    | .error (.throw .runtimeError) => .ok (ht, .notFound)
    | .error e => .error e

/-- A history of calls. -/
def TOp.execs (junk : Fresh) (arr : Mem Nat) (ht : HashTable) : List TOp → M (HashTable × List TOut)
  | [] => .ok (ht, [])
  | op :: ops => do
    let r ← op.exec junk arr ht
    let r' ← TOp.execs junk arr r.1 ops
    .ok (r'.1, r.2 :: r'.2)

/-- Specification: the table is a finite map from strings to optional names. `tbl s = none`: `s` is not stored,
`some none`: stored without a name, `some (some x)`: stored with the name `x`. -/
def TOp.agrees (tbl : List Nat → Option (Option Nat)) : List TOp → List TOut → Prop
  | [], outs => outs = []
  | .insert s :: ops, outs => ∃ rest, outs = .status (if (tbl s).isSome then 0 else 1) :: rest ∧
      TOp.agrees (fun s' => if s' = s then some ((tbl s).getD none) else tbl s') ops rest
  | .name s x :: ops, outs => ∃ rest, outs = .done :: rest ∧
      TOp.agrees (fun s' => if s' = s then (tbl s).map (fun _ => some x) else tbl s') ops rest
  | .find s :: ops, outs => ∃ o rest, outs = o :: rest ∧
      (match tbl s with
        | none => o = .notFound
        | some none => ∃ x, o = .found x
        | some (some x) => o = .found x) ∧ TOp.agrees tbl ops rest

/-- memory that may be needed for a history -/
def TOp.need : List TOp → Nat
  | [] => 0
  | .insert s :: ops => 530 + s.length + TOp.need ops
  | _ :: ops => TOp.need ops

/-- number of insertions of a history -/
def TOp.inserts : List TOp → Nat
  | [] => 0
  | .insert _ :: ops => 1 + TOp.inserts ops
  | _ :: ops => TOp.inserts ops

/-- Conditions on the arguments: strings of at least 3 bytes, of a length that is not a multiple of 256 unless fresh memory
contains zeros (C18), names within the bound `n/2 + 1` the table was constructed for. -/
def TOp.okFor (junk : Fresh) (n : Nat) : TOp → Prop
  | .insert s => 3 ≤ s.length ∧ (s.length % 256 ≠ 0 ∨ ∀ i, junk i % 256 = 0)
  | .name _ x => x ≤ n / 2 + 1
  | .find _ => True

/-- The table holds the map `tbl`. -/
def Holds (ht : HashTable) (tbl : List Nat → Option (Option Nat)) (own : Nat → Tag) (ents : Nat → List (Nat × List Nat))
    (E : Nat → Nat) : Prop :=
  Tab ht own ents E ∧ (∀ s, Has ht ents s ↔ (tbl s).isSome = true) ∧ 1 ≤ ht.nameBytes ∧ ht.nameBytes ≤ 8 ∧
  ∀ h < ht.htsize, ∀ e ∈ ents h, ∀ x, tbl e.2 = some (some x) →
    x < 256 ^ ht.nameBytes ∧ BE ht.buf (e.1 + bodyLen e.2) ht.nameBytes x

theorem Holds.insert (junk : Fresh) {ht : HashTable} {tbl : List Nat → Option (Option Nat)} {own : Nat → Tag}
    {ents : Nat → List (Nat × List Nat)} {E : Nat → Nat} (g : Holds ht tbl own ents E) (s : List Nat)
    (h3 : 3 ≤ s.length) (hj : s.length % 256 ≠ 0 ∨ ∀ i, junk i % 256 = 0) (hsp : junk.Room (ht.bufsize + 530 + s.length)) :
    Tot (insertString junk ht (ofList s) s.length 0) (fun r => r.2 = (if (tbl s).isSome then 0 else 1) ∧
      r.1.bufsize ≤ ht.bufsize + 530 + s.length ∧ r.1.nameBytes = ht.nameBytes ∧ r.1.htsize = ht.htsize ∧
      ∃ own' ents' E', Holds r.1 (fun s' => if s' = s then some ((tbl s).getD none) else tbl s') own' ents' E' ∧
        (allEnts ents' ht.htsize).length ≤ (allEnts ents ht.htsize).length + 1) := by
  obtain ⟨t, hset, hN1, hN8, hnm⟩ := g
  have hsub := substr_ofList s
  have hnb : nb s.length ≤ 8 := nb_le8 (by omega) (by
    have : (2 : Nat) ^ 63 < 2 ^ 64 := by norm_num
    omega)
  have hb : bodyLen s = 2 + nb s.length + s.length := rfl
  have hhl := hashL_lt t.hts s
  have := insertString_tot t junk (ofList s) s.length 0 (by simp [ofList]) h3 (by rw [hsub]; omega)
    (hj.imp id (fun h i _ => h i))
  rw [hsub] at this
  refine this.mono ?_
  rintro ⟨ht', r⟩ (⟨a, b, c, _, d⟩ | ⟨a, b, own', ents', E', q, t', ad⟩)
  · simp only at b d
    subst d
    have hin := (hset s).1 a
    have htbl : (fun s' => if s' = s then some ((tbl s).getD none) else tbl s') = tbl := by
      funext s'
      by_cases e : s' = s
      · subst e
        rw [if_pos (by rfl)]
        cases hv : tbl s' with
        | none => rw [hv] at hin; simp at hin
        | some v => rfl
      · rw [if_neg e]
    rw [htbl]
    refine ⟨by simp [b, hin], by simp only; omega, rfl, rfl, own, ents, E, ⟨?_, hset, hN1, hN8, hnm⟩, by omega⟩
    exact ⟨t.hts, t.hb, t.restsz, t.headsz, t.bufsz, t.small, t.ownlt, t.empty, t.chain, t.room, t.hash, t.nodup⟩
  · simp only at b
    have hin : ¬ (tbl s).isSome = true := fun h => a ((hset s).2 h)
    have hnone : tbl s = none := by
      cases hv : tbl s with
      | none => rfl
      | some v => rw [hv] at hin; simp at hin
    have hbs := ad.bufsize.2
    refine ⟨by simp [b, hin], by simp only at hbs ⊢; omega, ad.nameBytes, ad.htsize, own', ents', E',
      ⟨t', ?_, by rw [ad.nameBytes]; exact hN1, by rw [ad.nameBytes]; exact hN8, ?_⟩, ?_⟩
    · intro s'
      unfold Has
      rw [ad.htsize, ad.ents]
      simp only
      have hs' := hset s'
      unfold Has at hs'
      by_cases e : s' = s
      · subst e
        simp
      · rw [if_neg e, ← hs']
        by_cases hh : hashL ht.htsize s' = hashL ht.htsize s
        · rw [if_pos hh]
          simp [e]
        · rw [if_neg hh]
    · intro h hh e he x hx
      rw [ad.htsize] at hh
      rw [ad.ents] at he
      simp only at he hx
      have hne : e.2 ≠ s := by
        intro hc
        rw [if_pos hc, hnone] at hx
        simp at hx
      rw [if_neg hne] at hx
      have he' : e ∈ ents h := by
        by_cases hhh : h = hashL ht.htsize s
        · rw [if_pos hhh, List.mem_append, List.mem_singleton] at he
          rcases he with he | he
          · exact he
          · exact absurd (by rw [he]) hne
        · rwa [if_neg hhh] at he
      obtain ⟨b1, b2⟩ := hnm h hh e he' x hx
      have st := t.stored (q := e.1) (s := e.2) hh he'
      rw [ad.nameBytes]
      refine ⟨b1, b2.congr ?_⟩
      intro i i1 i2
      have := st.own_name (i - (e.1 + bodyLen e.2)) (by omega)
      rw [show e.1 + bodyLen e.2 + (i - (e.1 + bodyLen e.2)) = i by omega] at this
      exact (ad.names _ _ this).2
    · rw [ad.ents]
      have key : ∀ k, (allEnts (fun h => if h = hashL ht.htsize s then ents h ++ [(q, s)] else ents h) k).length =
          (allEnts ents k).length + (if hashL ht.htsize s < k then 1 else 0) := by
        intro k
        induction k with
        | zero => simp [allEnts]
        | succ k ih =>
          rw [allEnts_succ, allEnts_succ, List.length_append, List.length_append, ih]
          by_cases e : k = hashL ht.htsize s
          · rw [if_pos e, if_neg (by omega), if_pos (by omega), List.length_append]
            simp only [List.length_singleton]
            omega
          · rw [if_neg e]
            by_cases e2 : hashL ht.htsize s < k
            · rw [if_pos e2, if_pos (by omega)]; omega
            · rw [if_neg e2, if_neg (by omega)]; omega
      rw [key]
      split <;> omega

theorem Holds.name {ht : HashTable} {tbl : List Nat → Option (Option Nat)} {own : Nat → Tag}
    {ents : Nat → List (Nat × List Nat)} {E : Nat → Nat} (g : Holds ht tbl own ents E) (arr : Mem Nat) (s : List Nat)
    (x : Nat) (harr : (allEnts ents ht.htsize).length ≤ arr.size) (hx : x < 256 ^ ht.nameBytes) :
    Tot (do
      let r ← collect ht arr 0
      nameAt ht.nameBytes r.1 r.2 s x ht.buf) (fun buf =>
        Holds { ht with buf := buf } (fun s' => if s' = s then (tbl s).map (fun _ => some x) else tbl s') own ents E) := by
  obtain ⟨t, hset, hN1, hN8, hnm⟩ := g
  rw [Tot_bind]
  refine (collect_tot t arr 0 (by omega) ht rfl rfl rfl (Nat.le_refl _) (fun _ _ => rfl)).mono ?_
  rintro ⟨ptrs, cnt⟩ ⟨⟨p1, p2, _⟩, hcnt⟩
  simp only [Nat.zero_add, List.length_map] at p1 p2 hcnt
  subst hcnt
  unfold nameAt
  simp only
  refine (loopUp_spec (fun k (b : Mem Nat) => Tab { ht with buf := b } own ents E ∧
    (∀ j (hj : j < (allEnts ents ht.htsize).length), j < k → (allEnts ents ht.htsize)[j].2 = s →
      BE b ((allEnts ents ht.htsize)[j].1 + bodyLen (allEnts ents ht.htsize)[j].2) ht.nameBytes x) ∧
    (∀ j (hj : j < (allEnts ents ht.htsize).length), (k ≤ j ∨ (allEnts ents ht.htsize)[j].2 ≠ s) →
      ∀ i, own i = .name (allEnts ents ht.htsize)[j].1 → b.data i = ht.buf.data i)) 0 _ ht.buf _
    ⟨t, by intro j _ hj; omega, by intro _ _ _ _ _; rfl⟩ ?_).mono ?_
  · rintro k b _ k2 ⟨tb, c1, c2⟩
    have hk : k < (allEnts ents ht.htsize).length := by omega
    obtain ⟨h, hh, hxm⟩ := mem_allEnts.1 (List.getElem_mem hk)
    have hq : ptrs.data k = (allEnts ents ht.htsize)[k].1 := by rw [p2 k hk]; simp [List.getD, hk]
    have st := tb.stored (q := (allEnts ents ht.htsize)[k].1) (s := (allEnts ents ht.htsize)[k].2) hh hxm
    have hrs : readString b (allEnts ents ht.htsize)[k].1 = .ok (allEnts ents ht.htsize)[k].2 := st.readString
    simp only [Tot_bind, Mem.Tot_rd]
    refine ⟨by omega, ?_⟩
    rw [hq, hrs]
    simp only [Tot_ok]
    have hnd : (allEnts ents ht.htsize).Nodup := List.Nodup.of_map _ t.nodup_all
    by_cases es : (allEnts ents ht.htsize)[k].2 = s
    · rw [if_pos es]
      refine (setName_tab tb hh (q := (allEnts ents ht.htsize)[k].1) (s := (allEnts ents ht.htsize)[k].2) hxm x).mono ?_
      rintro b' ⟨t', hbe, hfr, _⟩
      simp only at hbe hfr t'
      refine ⟨t', ?_, ?_⟩
      · intro j hj hjk ejs
        have hje : (allEnts ents ht.htsize)[j] = (allEnts ents ht.htsize)[k] :=
          ((t.inj hN1 (List.getElem_mem hj) (List.getElem_mem hk)).2).1 (by rw [ejs, es])
        rw [hje]
        exact hbe
      · intro j hj hjk i hi
        have hjs : (allEnts ents ht.htsize)[j].2 ≠ s := by
          rcases hjk with hjk | hjk
          · intro ejs
            have hje : (allEnts ents ht.htsize)[j] = (allEnts ents ht.htsize)[k] :=
              ((t.inj hN1 (List.getElem_mem hj) (List.getElem_mem hk)).2).1 (by rw [ejs, es])
            have := (List.Nodup.getElem_inj_iff hnd).1 hje
            omega
          · exact hjk
        rw [hfr, c2 j hj (Or.inr hjs) i hi]
        rw [hi]
        intro hc
        have h1 : (allEnts ents ht.htsize)[j].1 = (allEnts ents ht.htsize)[k].1 := by injection hc
        have := ((t.inj hN1 (List.getElem_mem hj) (List.getElem_mem hk)).1).1 h1
        exact hjs (by rw [this, es])
    · rw [if_neg es, Tot_ok]
      refine ⟨tb, ?_, ?_⟩
      · intro j hj hjk ejs
        by_cases hjk' : j = k
        · subst hjk'
          exact absurd ejs es
        · exact c1 j hj (by omega) ejs
      · intro j hj hjk
        apply c2 j hj
        rcases hjk with hjk | hjk
        · left; omega
        · right; exact hjk
  · rintro b ⟨tb, c1, c2⟩
    rw [Nat.zero_add] at c1 c2
    refine ⟨tb, ?_, hN1, hN8, ?_⟩
    · intro s'
      rw [show Has { ht with buf := b } ents s' ↔ Has ht ents s' from Iff.rfl, hset s']
      by_cases e : s' = s
      · subst e
        simp
      · simp only [if_neg e]
    · intro h hh e he y hy
      simp only at hh hy ⊢
      have hmem : e ∈ allEnts ents ht.htsize := mem_allEnts.2 ⟨h, hh, he⟩
      obtain ⟨j, hj, hje⟩ := List.getElem_of_mem hmem
      by_cases es : e.2 = s
      · rw [if_pos es] at hy
        have hyx : y = x := by
          cases hv : tbl s with
          | none => rw [hv] at hy; simp at hy
          | some v => rw [hv] at hy; simp at hy; exact hy.symm
        subst hyx
        have := c1 j hj hj (by rw [hje]; exact es)
        rw [hje] at this
        exact ⟨hx, this⟩
      · rw [if_neg es] at hy
        obtain ⟨b1, b2⟩ := hnm h hh e he y hy
        refine ⟨b1, b2.congr ?_⟩
        intro i i1 i2
        have st := t.stored (q := e.1) (s := e.2) hh he
        have := st.own_name (i - (e.1 + bodyLen e.2)) (by omega)
        rw [show e.1 + bodyLen e.2 + (i - (e.1 + bodyLen e.2)) = i by omega] at this
        exact c2 j hj (Or.inr (by rw [hje]; exact es)) i (by rw [hje]; exact this)

theorem Holds.find {ht : HashTable} {tbl : List Nat → Option (Option Nat)} {own : Nat → Tag}
    {ents : Nat → List (Nat × List Nat)} {E : Nat → Nat} (g : Holds ht tbl own ents E) (junk : Fresh) (arr : Mem Nat)
    (s : List Nat) : ∃ o, TOp.exec junk arr ht (.find s) = .ok (ht, o) ∧ (match tbl s with
        | none => o = .notFound
        | some none => ∃ x, o = .found x
        | some (some x) => o = .found x) := by
  obtain ⟨t, hset, hN1, hN8, hnm⟩ := g
  have hsub := substr_ofList s
  unfold TOp.exec
  cases hv : tbl s with
  | none =>
    have hf := findName_absent t (ofList s) s.length 0 (by simp [ofList]) (by rw [hsub, hset s, hv]; simp)
    exact ⟨.notFound, by simp only [hf], rfl⟩
  | some v =>
    have hh := (hset s).2 (by rw [hv]; rfl)
    unfold Has at hh
    obtain ⟨⟨q, s'⟩, hq, hs'⟩ := List.mem_map.1 hh
    simp only at hs'
    subst hs'
    have hf := findName_present t (ofList s') s'.length 0 q (by simp [ofList]) (by rw [hsub]; exact hq)
    have st := t.stored (hashL_lt t.hts _) hq
    cases v with
    | none =>
      obtain ⟨nm, hnm', _⟩ := Tot_iff.1 st.getName_tot
      rw [hnm'] at hf
      exact ⟨.found nm, by simp only [hf], nm, rfl⟩
    | some x =>
      obtain ⟨b1, b2⟩ := hnm _ (hashL_lt t.hts _) _ hq x hv
      rw [st.getName_eq hN8 b1 b2] at hf
      exact ⟨.found x, by simp only [hf], rfl⟩

theorem Holds.execs (junk : Fresh) (arr : Mem Nat) (n : Nat) (ops : List TOp) : ∀ (ht : HashTable)
    (tbl : List Nat → Option (Option Nat)) (own : Nat → Tag) (ents : Nat → List (Nat × List Nat)) (E : Nat → Nat),
    Holds ht tbl own ents E → n / 2 + 1 < 256 ^ ht.nameBytes → junk.Room (ht.bufsize + TOp.need ops) →
    (allEnts ents ht.htsize).length + TOp.inserts ops ≤ arr.size → (∀ op ∈ ops, op.okFor junk n) →
    Tot (TOp.execs junk arr ht ops) (fun r => TOp.agrees tbl ops r.2 ∧ ∃ tbl' own' ents' E', Holds r.1 tbl' own' ents' E' ∧
      (allEnts ents' r.1.htsize).length ≤ arr.size ∧
      (∀ s, (tbl' s).isSome = true ↔ ((tbl s).isSome = true ∨ ∃ op ∈ ops, op = .insert s)) ∧
      r.1.bufsize ≤ ht.bufsize + TOp.need ops) := by
  induction ops with
  | nil =>
    intro ht tbl own ents E g _ _ harr _
    exact ⟨rfl, tbl, own, ents, E, g, by simp only [TOp.inserts] at harr; exact harr, by simp, by simp [TOp.need]⟩
  | cons op ops ih =>
    intro ht tbl own ents E g hn hr harr hok
    have hok' := fun o ho => hok o (List.mem_cons_of_mem _ ho)
    have hop := hok op List.mem_cons_self
    cases op with
    | insert s =>
      obtain ⟨h3, hj⟩ := hop
      simp only [TOp.need, TOp.inserts] at hr harr
      simp only [TOp.execs, TOp.exec, Tot_bind]
      refine (g.insert junk s h3 hj (by omega)).mono ?_
      rintro ⟨ht', r⟩ ⟨hr1, hb, hnb, hhs, own', ents', E', g', hlen⟩
      simp only at hr1 hb hnb hhs g'
      simp only [Tot_ok]
      refine (ih ht' _ own' ents' E' g' (by rw [hnb]; exact hn) (by omega) (by rw [hhs]; omega) hok').mono ?_
      rintro ⟨ht2, outs⟩ ⟨ho, tbl', o2, e2, E2, g2, l2, s2, b2⟩
      refine ⟨⟨outs, by rw [hr1], ho⟩, tbl', o2, e2, E2, g2, l2, ?_, by simp only [TOp.need] at b2 ⊢; omega⟩
      intro s'
      rw [s2 s']
      by_cases e : s' = s
      · subst e; simp
      · simp only [if_neg e, List.mem_cons]
        constructor
        · rintro (h | ⟨op, h1, h2⟩)
          · exact Or.inl h
          · exact Or.inr ⟨op, Or.inr h1, h2⟩
        · rintro (h | ⟨op, h1 | h1, h2⟩)
          · exact Or.inl h
          · rw [h1] at h2
            injection h2 with h2
            exact absurd h2.symm e
          · exact Or.inr ⟨op, h1, h2⟩
    | name s x =>
      simp only [TOp.okFor] at hop
      simp only [TOp.need, TOp.inserts] at hr harr
      have := g.name arr s x (by omega) (by omega)
      rw [Tot_bind] at this
      simp only [TOp.execs, TOp.exec, Tot_bind]
      refine this.mono ?_
      intro r hbuf
      refine hbuf.mono ?_
      intro buf g'
      simp only [Tot_ok]
      refine (ih { ht with buf := buf } _ own ents E g' hn hr harr hok').mono ?_
      rintro ⟨ht2, outs⟩ ⟨ho, tbl', o2, e2, E2, g2, l2, s2, b2⟩
      refine ⟨⟨outs, rfl, ho⟩, tbl', o2, e2, E2, g2, l2, ?_, by simp only [TOp.need] at b2 ⊢; omega⟩
      intro s'
      rw [s2 s']
      have : ((if s' = s then (tbl s).map (fun _ => some x) else tbl s').isSome = true) ↔ (tbl s').isSome = true := by
        by_cases e : s' = s
        · subst e; simp
        · rw [if_neg e]
      rw [this]
      simp
    | find s =>
      simp only [TOp.need, TOp.inserts] at hr harr
      obtain ⟨o, ho1, ho2⟩ := g.find junk arr s
      simp only [TOp.execs, ho1, ok_bind, Tot_bind, Tot_ok]
      refine (ih ht tbl own ents E g hn hr harr hok').mono ?_
      rintro ⟨ht2, outs⟩ ⟨ho, tbl', o2, e2, E2, g2, l2, s2, b2⟩
      refine ⟨⟨o, outs, rfl, ho2, ho⟩, tbl', o2, e2, E2, g2, l2, ?_, by simp only [TOp.need] at b2 ⊢; omega⟩
      intro s'
      rw [s2 s']
      simp

theorem new_holds (size n : Nat) (h0 : 0 < size) (hn : n < 2 ^ 64) :
    Tot (HashTable.new size n) (fun ht => (∃ own ents E, Holds ht (fun _ => none) own ents E ∧
      allEnts ents ht.htsize = []) ∧ ht.bufsize = 0 ∧ n / 2 + 1 < 256 ^ ht.nameBytes) := by
  refine (new_tab size n h0 hn).mono ?_
  rintro ht ⟨t, h1, h2, _, _, h3, h4, h5⟩
  exact ⟨⟨_, _, _, ⟨t, by simp [Has], h4, h5, by simp⟩, by simp [allEnts]⟩, h2, h3⟩

/-- **C72** For every table size, every history of `insert_string`, `set_name` and `find_name` calls in any order, and
whatever `realloc` leaves in fresh memory: no call faults, and every result is that of a finite map from strings to
names (`TOp.agrees`): insertions report exactly the new strings and never change the name of a stored string, a name stored is
returned until it is replaced, whatever is inserted or named in between, and `find_name` throws exactly for the strings
not stored. -/
theorem C72_table_is_a_map (size n : Nat) (h0 : 0 < size) (hn : n < 2 ^ 64) (junk : Fresh) (arr : Mem Nat)
    (ops : List TOp) (hok : ∀ op ∈ ops, op.okFor junk n) (hmem : junk.Room (TOp.need ops))
    (harr : TOp.inserts ops ≤ arr.size) :
    Tot (do let ht ← HashTable.new size n; TOp.execs junk arr ht ops) (fun r => TOp.agrees (fun _ => none) ops r.2) := by
  rw [Tot_bind]
  refine (new_holds size n h0 hn).mono ?_
  rintro ht ⟨⟨own, ents, E, g, he⟩, hb, hname⟩
  exact (Holds.execs junk arr n ops ht _ own ents E g hname (by omega) (by rw [he]; simpa using harr) hok).mono
    fun _ h => h.1

-- the hypotheses are met by a history in which a name is stored, another string is inserted and named, and the first name is
-- looked up, replaced (by the largest name allowed, `20 / 2 + 1`) and looked up again; exactly `3 * 533` bytes of memory,
-- all 255
example : (∀ op ∈ [TOp.insert [1, 2, 3], .name [1, 2, 3] 5, .insert [3, 2, 1], .name [3, 2, 1] 6, .find [1, 2, 3],
      .name [1, 2, 3] 11, .insert [1, 2, 3], .find [1, 2, 3], .find [9]], op.okFor ⟨fun _ => 255, 1599⟩ 20) ∧
    (⟨fun _ => 255, 1599⟩ : Fresh).Room (TOp.need [TOp.insert [1, 2, 3], .name [1, 2, 3] 5, .insert [3, 2, 1],
      .name [3, 2, 1] 6, .find [1, 2, 3], .name [1, 2, 3] 11, .insert [1, 2, 3], .find [1, 2, 3], .find [9]]) := by
  refine ⟨?_, by decide⟩
  intro op hop
  simp only [List.mem_cons, List.not_mem_nil, or_false] at hop
  rcases hop with rfl | rfl | rfl | rfl | rfl | rfl | rfl | rfl | rfl <;> simp [TOp.okFor]

-- the specification determines the results of that history
example (outs : List TOut) (h : TOp.agrees (fun _ => none) [TOp.insert [1, 2, 3], .name [1, 2, 3] 5, .insert [3, 2, 1],
      .name [3, 2, 1] 6, .find [1, 2, 3], .name [1, 2, 3] 11, .insert [1, 2, 3], .find [1, 2, 3], .find [9]] outs) :
    outs = [.status 1, .done, .status 1, .done, .found 5, .done, .status 0, .found 11, .notFound] := by
  obtain ⟨_, rfl, _, rfl, _, rfl, _, rfl, o1, _, rfl, h1, _, rfl, _, rfl, o2, _, rfl, h2, o3, _, rfl, h3, rfl⟩ := h
  simp at h1 h2 h3
  subst h1 h2 h3
  simp

/-! ## C73: the documented layout of the records -/

/-- The record of the string `s` at offset `q` as described in include/hashtable.hpp:9-15: the number `b` of bytes of the
length, the length (most significant byte first, no leading zero byte), the sentinel (first character plus one), the
characters, `nameBytes` bytes for the name. -/
def DocRecord (buf : Mem Nat) (q b : Nat) (s : List Nat) : Prop :=
  buf.data q = b ∧ 1 ≤ b ∧ 256 ^ (b - 1) ≤ s.length ∧ s.length < 256 ^ b ∧
  (∀ j < b, buf.data (q + 1 + j) = s.length / 256 ^ (b - 1 - j) % 256) ∧
  buf.data (q + 1 + b) = (s.getD 0 0 + 1) % 256 ∧
  ∀ j < s.length, buf.data (q + 2 + b + j) = s.getD j 0

theorem Tab.disjoint {ht : HashTable} {own : Nat → Tag} {ents : Nat → List (Nat × List Nat)} {E : Nat → Nat}
    (t : Tab ht own ents E) {x y : Nat × List Nat} (hx : x ∈ allEnts ents ht.htsize) (hy : y ∈ allEnts ents ht.htsize)
    (hne : x ≠ y) : x.1 + (bodyLen x.2 + ht.nameBytes) ≤ y.1 ∨ y.1 + (bodyLen y.2 + ht.nameBytes) ≤ x.1 := by
  obtain ⟨h, hh, hx⟩ := mem_allEnts.1 hx
  obtain ⟨h', hh', hy⟩ := mem_allEnts.1 hy
  have s1 := t.stored (q := x.1) (s := x.2) hh hx
  have s2 := t.stored (q := y.1) (s := y.2) hh' hy
  have e1 := t.hash h hh x hx
  have e2 := t.hash h' hh' y hy
  by_contra hc
  rw [not_or] at hc
  have hbx : 1 ≤ bodyLen x.2 := by unfold bodyLen; omega
  have hby : 1 ≤ bodyLen y.2 := by unfold bodyLen; omega
  have same : hashL ht.htsize x.2 = hashL ht.htsize y.2 := by
    rcases Nat.le_total x.1 y.1 with hl | hl
    · have a := s2.own_body y.1 (Nat.le_refl _) (by omega)
      by_cases hb : y.1 < x.1 + bodyLen x.2
      · have b := s1.own_body y.1 hl hb
        rw [a] at b
        injection b with b
        exact b.symm
      · have b := s1.own_name (y.1 - (x.1 + bodyLen x.2)) (by omega)
        rw [show x.1 + bodyLen x.2 + (y.1 - (x.1 + bodyLen x.2)) = y.1 by omega, a] at b
        cases b
    · have a := s1.own_body x.1 (Nat.le_refl _) (by omega)
      by_cases hb : x.1 < y.1 + bodyLen y.2
      · have b := s2.own_body x.1 hl hb
        rw [a] at b
        injection b
      · have b := s2.own_name (x.1 - (y.1 + bodyLen y.2)) (by omega)
        rw [show y.1 + bodyLen y.2 + (x.1 - (y.1 + bodyLen y.2)) = x.1 by omega, a] at b
        cases b
  rw [e1, e2] at same
  subst same
  have srt := (t.chain h hh (t.head_ne hh hx)).sorted
  have : ∀ (L : List (Nat × List Nat)), L.Pairwise (fun a b => a.1 + bodyLen a.2 + ht.nameBytes ≤ b.1) → x ∈ L → y ∈ L →
      x.1 + bodyLen x.2 + ht.nameBytes ≤ y.1 ∨ y.1 + bodyLen y.2 + ht.nameBytes ≤ x.1 := by
    intro L hL
    induction hL with
    | nil => intro h; simp at h
    | cons h1 _ ih =>
      intro hx hy
      rcases List.mem_cons.1 hx with rfl | hx'
      · rcases List.mem_cons.1 hy with rfl | hy'
        · exact absurd rfl hne
        · exact Or.inl (h1 _ hy')
      · rcases List.mem_cons.1 hy with rfl | hy'
        · exact Or.inr (h1 _ hx')
        · exact ih hx' hy'
  have := this _ srt hx hy
  omega

/-- **C73** After any history of `insert_string`, `set_name` and `find_name` calls, the walk over the table yields one pointer
for each string inserted; the bytes there have the documented layout (`DocRecord`); `get_length`, `get_lenlen`,
`get_first_character_pointer` and `string_info_length` return the length, the number of length bytes, the position of the
first character and the number of bytes of the whole record; every record lies inside the buffer, behind the byte at offset 0,
and no two records overlap. -/
theorem C73_record_layout (size n : Nat) (h0 : 0 < size) (hn : n < 2 ^ 64) (junk : Fresh) (arr : Mem Nat)
    (ops : List TOp) (hok : ∀ op ∈ ops, op.okFor junk n) (hmem : junk.Room (TOp.need ops))
    (harr : TOp.inserts ops ≤ arr.size) :
    Tot (do
      let ht ← HashTable.new size n
      let r ← TOp.execs junk arr ht ops
      let w ← collect r.1 arr 0
      .ok (r.1, w)) (fun r => match r with
        | (ht, ptrs, cnt) => ∃ strs : List (List Nat), strs.length = cnt ∧ strs.Nodup ∧
          (∀ s, s ∈ strs ↔ .insert s ∈ ops) ∧
          (∀ k (hk : k < strs.length), ∃ b,
            DocRecord ht.buf (ptrs.data k) b strs[k] ∧
            getLenlen ht.buf (ptrs.data k) = .ok b ∧
            getLength ht.buf (ptrs.data k) = .ok strs[k].length ∧
            getFirstCharacterPointer ht.buf (ptrs.data k) = .ok (ptrs.data k + 2 + b) ∧
            stringInfoLength ht.nameBytes ht.buf (ptrs.data k) strs[k].length = .ok (2 + b + strs[k].length + ht.nameBytes) ∧
            1 ≤ ptrs.data k ∧ ptrs.data k + (2 + b + strs[k].length + ht.nameBytes) ≤ ht.bufsize) ∧
          ∀ k k' (hk : k < strs.length) (hk' : k' < strs.length), k ≠ k' → ∀ d d',
            stringInfoLength ht.nameBytes ht.buf (ptrs.data k) strs[k].length = .ok d →
            stringInfoLength ht.nameBytes ht.buf (ptrs.data k') strs[k'].length = .ok d' →
            ptrs.data k + d ≤ ptrs.data k' ∨ ptrs.data k' + d' ≤ ptrs.data k) := by
  rw [Tot_bind]
  refine (new_holds size n h0 hn).mono ?_
  rintro ht0 ⟨⟨own0, ents0, E0, g0, he0⟩, hb, hname⟩
  rw [Tot_bind]
  refine (Holds.execs junk arr n ops ht0 _ own0 ents0 E0 g0 hname (by omega) (by rw [he0]; simpa using harr) hok).mono ?_
  rintro ⟨ht, outs⟩ ⟨_, tbl, own, ents, E, ⟨t, hset, hN1, hN8, hnm⟩, hl, hin, -⟩
  simp only at hl t hset hN1
  rw [Tot_bind]
  refine (collect_tot t arr 0 (by omega) ht rfl rfl rfl (Nat.le_refl _) (fun _ _ => rfl)).mono ?_
  rintro ⟨ptrs, cnt⟩ ⟨⟨p1, p2, _⟩, hcnt⟩
  simp only [Nat.zero_add, List.length_map] at p1 p2 hcnt
  subst hcnt
  rw [Tot_ok]
  have hptr : ∀ k (hk : k < (allEnts ents ht.htsize).length), ptrs.data k = (allEnts ents ht.htsize)[k].1 := by
    intro k hk
    rw [p2 k hk]; simp [List.getD, hk]
  have hinfo : ∀ k (hk : k < (allEnts ents ht.htsize).length),
      stringInfoLength ht.nameBytes ht.buf (ptrs.data k) (allEnts ents ht.htsize)[k].2.length =
        .ok (bodyLen (allEnts ents ht.htsize)[k].2 + ht.nameBytes) := by
    intro k hk
    obtain ⟨h, hh, hxm⟩ := mem_allEnts.1 (List.getElem_mem hk)
    have st := t.stored (q := (allEnts ents ht.htsize)[k].1) (s := (allEnts ents ht.htsize)[k].2) hh hxm
    have hbd := st.bound
    have hsm := t.small64
    rw [hptr k hk, st.at_.stringInfoLength _ _ (by omega) (by unfold bodyLen at hbd; omega)]
    congr 1
    unfold bodyLen
    omega
  refine ⟨(allEnts ents ht.htsize).map Prod.snd, by simp, t.nodup_all, ?_, ?_, ?_⟩
  · intro s
    rw [← t.has_iff, hset s, hin s]
    simp
  · intro k hk
    simp only [List.length_map] at hk
    simp only [List.getElem_map]
    obtain ⟨h, hh, hxm⟩ := mem_allEnts.1 (List.getElem_mem hk)
    have st := t.stored (q := (allEnts ents ht.htsize)[k].1) (s := (allEnts ents ht.htsize)[k].2) hh hxm
    have hinf := hinfo k hk
    rw [hptr k hk] at hinf ⊢
    have hbd := st.bound
    have hps := st.pos
    have hlen := st.len
    have hbody : bodyLen (allEnts ents ht.htsize)[k].2 = 2 + nb (allEnts ents ht.htsize)[k].2.length +
      (allEnts ents ht.htsize)[k].2.length := rfl
    refine ⟨nb (allEnts ents ht.htsize)[k].2.length, ⟨st.at_.1.1, nb_pos _, nb_le (by omega), nb_lt _, st.at_.1.2,
      st.at_.2.1, st.at_.2.2⟩, ?_, st.getLength, st.firstChar, ?_, by omega, ?_⟩
    · unfold getLenlen
      rw [Mem.rd_ok _ (by omega), st.at_.1.1]
    · rw [hinf, hbody]
    · rw [t.bufsz] at hbd
      omega
  · intro k k' hk hk' hkk d d' hd hd'
    simp only [List.length_map] at hk hk'
    simp only [List.getElem_map] at hd hd'
    rw [hinfo k hk] at hd
    rw [hinfo k' hk'] at hd'
    injection hd with hd
    injection hd' with hd'
    subst hd hd'
    rw [hptr k hk, hptr k' hk']
    apply t.disjoint (List.getElem_mem hk) (List.getElem_mem hk')
    intro hc
    have hnd : (allEnts ents ht.htsize).Nodup := List.Nodup.of_map _ t.nodup_all
    exact hkk ((List.Nodup.getElem_inj_iff hnd).1 hc)

/-! ## C74: a table without slots -/

/-- **C74** `HashTable(0, n)` can be constructed, but every `insert_string` and every `find_name` on it, for every string, divides
by zero. -/
theorem C74_no_slots (n : Nat) (hn : n < 2 ^ 64) (junk : Fresh) (s : List Nat) :
    Tot (HashTable.new 0 n) (fun ht =>
      insertString junk ht (ofList s) s.length 0 = .error (.ub .divByZero) ∧
      findName ht (ofList s) s.length 0 = .error (.ub .divByZero)) := by
  have hh : hashFunction 0 (ofList s) s.length 0 = .error (.ub .divByZero) := by
    unfold hashFunction
    obtain ⟨x, hx, _⟩ := Tot_iff.1 (loopUp_spec (fun _ _ => True) 0 s.length 0 (fun i x => do
      let c ← (ofList s).rd (0 + i)
      .ok ((x * 101 % 18446744073709551616 + c) % 18446744073709551616)) trivial (by
        intro i x _ i2 _
        simp only [Tot_bind, Mem.Tot_rd, Tot_ok, and_true]
        simp only [ofList]
        omega))
    rw [hx, ok_bind, if_pos (by rfl)]
  unfold HashTable.new
  obtain ⟨b, hb, _⟩ := Tot_iff.1 (positionOfMsb_spec (n / 2 + 1) (by omega) (by omega))
  simp only [hb, ok_bind, Tot_ok]
  unfold insertString findName
  simp only [hh]
  exact ⟨rfl, rfl⟩

/-- **C74** (boundary) One slot is enough: a table of size 1 accepts the same string. -/
theorem C74_one_slot (n : Nat) (hn : n < 2 ^ 64) (junk : Fresh) (s : List Nat) (h3 : 3 ≤ s.length)
    (hj : s.length % 256 ≠ 0) (hmem : junk.Room (530 + s.length)) :
    Tot (do let ht ← HashTable.new 1 n; insertString junk ht (ofList s) s.length 0) (fun r => r.2 = 1) := by
  rw [Tot_bind]
  refine (new_good 1 n (by omega) hn).mono ?_
  rintro ht ⟨g, hb, _⟩
  refine (insert_good junk g s h3 (Or.inl hj) (by omega)).mono ?_
  intro r h
  simpa using h.2.1

-- a string with three bytes and an allocator with 600 bytes meet the hypotheses
example : 3 ≤ [7, 8, 9].length ∧ [7, 8, 9].length % 256 ≠ 0 ∧ (⟨fun _ => 1, 600⟩ : Fresh).Room (530 + [7, 8, 9].length) := by
  decide

end HashTable
end Flbwt
