import Verif.PtrModel
import Verif.PropsTop

/-!
# Property C56: no use of pointers into a buffer that `realloc` has released
-/

namespace Flbwt

/-- The computation with blocks does what the model does: the same error, or results related by `R`. In particular it does
not end by `stale`. -/
def LR {α' α : Type _} (R : α' → α → Prop) : PM α' → M α → Prop
  | .ok a', .ok a => R a' a
  | .error (.prog e'), .error e => e' = e
  | _, _ => False

section
variable {α α' β β' σ σ' : Type _} {R : α' → α → Prop} {Q : β' → β → Prop}

theorem LR.bind {X : PM α'} {x : M α} {F : α' → PM β'} {f : α → M β} (h : LR R X x) (hf : ∀ a' a, R a' a → LR Q (F a') (f a)) :
    LR Q (X >>= F) (x >>= f) := by
  cases X with
  | ok a' =>
    cases x with
    | ok a => exact hf a' a h
    | error e => exact h.elim
  | error e' =>
    cases x with
    | ok a => cases e' <;> exact h.elim
    | error e => cases e' with
      | prog e' => exact h
      | stale => exact h.elim

theorem LR.plift (x : M α) : LR Eq (plift x) x := by cases x <;> rfl

theorem LR.bindL {x : M α} {F : α → PM β'} {f : α → M β} (hf : ∀ a, LR Q (F a) (f a)) : LR Q (Flbwt.plift x >>= F) (x >>= f) :=
  (LR.plift x).bind (fun a' a e => by subst e; exact hf a')

theorem LR.mono {R' : α' → α → Prop} {X : PM α'} {x : M α} (h : LR R X x) (hr : ∀ a' a, R a' a → R' a' a) : LR R' X x := by
  cases X with
  | ok a' =>
    cases x with
    | ok a => exact hr a' a h
    | error e => exact h.elim
  | error e' =>
    cases x with
    | ok a => cases e' <;> exact h.elim
    | error e => cases e' with
      | prog e' => exact h
      | stale => exact h.elim

theorem LR.eq {X : PM α} {x : M α} (h : LR Eq X x) : X = Flbwt.plift x := by
  cases X with
  | ok a' =>
    cases x with
    | ok a => rw [show a' = a from h]; rfl
    | error e => exact h.elim
  | error e' =>
    cases x with
    | ok a => cases e' <;> exact h.elim
    | error e => cases e' with
      | prog e' => rw [show e' = e from h]; rfl
      | stale => exact h.elim

theorem LR.use {p : BPtr} {g : Nat} {F : Nat → PM β'} {x : M β} (hg : p.gen = g) (h : LR Q (F p.off) x) : LR Q (p.use g >>= F) x := by
  unfold BPtr.use
  rw [if_pos hg]
  exact h

theorem LR.lt {p q : BPtr} {F : Bool → PM β'} {x : M β} (hg : p.gen = q.gen) (h : LR Q (F (decide (p.off < q.off))) x) :
    LR Q (p.lt q >>= F) x := by
  unfold BPtr.lt
  rw [if_pos hg]
  exact h

theorem LR.loopUp {I : σ' → σ → Prop} {F : Nat → σ' → PM σ'} {f : Nat → σ → M σ} (hs : ∀ i s' s, I s' s → LR I (F i s') (f i s)) :
    ∀ (cnt lo : Nat) {s' : σ'} {s : σ}, I s' s → LR I (loopUpP lo cnt s' F) (Flbwt.loopUp lo cnt s f)
  | 0, _, _, _, h => h
  | cnt + 1, lo, _, _, h => (hs lo _ _ h).bind fun _ _ h' => LR.loopUp hs cnt (lo + 1) h'

theorem LR.loopDown {I : σ' → σ → Prop} {F : Nat → σ' → PM σ'} {f : Nat → σ → M σ} (hs : ∀ i s' s, I s' s → LR I (F i s') (f i s)) :
    ∀ (hi : Nat) {s' : σ'} {s : σ}, I s' s → LR I (loopDownP hi s' F) (Flbwt.loopDown hi s f)
  | 0, _, _, h => h
  | hi + 1, _, _, h => (hs hi _ _ h).bind fun _ _ h' => LR.loopDown hs hi h'

/-- related outcomes of an iteration -/
def SumR (I : σ' → σ → Prop) (Q : β' → β → Prop) : σ' ⊕ β' → σ ⊕ β → Prop
  | .inl s', .inl s => I s' s
  | .inr b', .inr b => Q b' b
  | _, _ => False

theorem LR.whileM {I : σ' → σ → Prop} {F : σ' → PM (σ' ⊕ β')} {f : σ → M (σ ⊕ β)}
    (hs : ∀ s' s, I s' s → LR (SumR I Q) (F s') (f s)) :
    ∀ (fuel : Nat) {s' : σ'} {s : σ}, I s' s → LR Q (whileP fuel s' F) (Flbwt.whileM fuel s f)
  | 0, _, _, _ => rfl
  | fuel + 1, _, _, h => by
    unfold whileP
    rw [Flbwt.whileM]
    refine (hs _ _ h).bind ?_
    intro r' r hr
    cases r' <;> cases r
    · exact LR.whileM hs fuel hr
    · exact hr.elim
    · exact hr.elim
    · exact hr

theorem LR.mapM {F : α → PM β'} {f : α → M β} (hs : ∀ a, LR Q (F a) (f a)) (l : List α) :
    LR (List.Forall₂ Q) (l.mapM F) (l.mapM f) := by
  induction l with
  | nil => exact List.Forall₂.nil
  | cons a l ih =>
    rw [List.mapM_cons, List.mapM_cons]
    refine (hs a).bind ?_
    intro b' b hb
    refine ih.bind ?_
    intro l' l hl
    exact List.Forall₂.cons hb hl

end

/-! ## `insert_string` -/

namespace HashTable

/-- the variables of the scan -/
def ScanR (g : Nat) (x : Nat × Option BPtr × Option Nat × Nat) (y : Nat × Option Nat × Nat) : Prop :=
  x.1 = y.1 ∧ x.2.1 = y.2.1.map (fun i => ⟨g, i⟩) ∧ x.2.2.1 = y.2.1 ∧ x.2.2.2 = y.2.2

/-- the ends of the scan -/
def ScanEndR (g : Nat) : ScanEndP → ScanEnd → Prop
  | .dup c', .dup c => c' = c
  | .free q' r' pp' c', .free q r c => q' = q ∧ r' = r.map (fun i => ⟨g, i⟩) ∧ pp' = r ∧ c' = c
  | _, _ => False

theorem insertStepP_rel (t : GTab) (T : Mem Nat) (m p : Nat) (s' : Nat × Option BPtr × Option Nat × Nat) (s : Nat × Option Nat × Nat)
    (h : ScanR t.gen s' s) : LR (SumR (ScanR t.gen) (ScanEndR t.gen)) (insertStepP t T m p s') (insertStep t.ht.nameBytes t.ht.buf T m p s) := by
  obtain ⟨q', r', pp', c'⟩ := s'
  obtain ⟨q, r, c⟩ := s
  obtain ⟨h1, h2, h3, h4⟩ := h
  simp only at h1 h2 h3 h4
  subst h1; subst h3; subst h4; subst h2
  unfold insertStepP insertStep
  dsimp only
  by_cases hq : q' ≠ 0
  · rw [if_pos hq, if_pos hq]
    refine LR.use rfl ?_
    refine LR.bindL fun l => ?_
    by_cases h0 : l = 0
    · rw [if_pos h0, if_pos h0]; exact ⟨rfl, rfl, rfl, rfl⟩
    · rw [if_neg h0, if_neg h0]
      by_cases h2 : l = 2
      · rw [if_pos h2, if_pos h2]
        refine LR.use rfl ?_
        refine LR.bindL fun q2 => ?_
        exact ⟨rfl, rfl, rfl, rfl⟩
      · rw [if_neg h2, if_neg h2]
        by_cases hm : l ≠ m
        · rw [if_pos hm, if_pos hm]
          refine LR.use rfl ?_
          refine LR.bindL fun d => ?_
          exact ⟨rfl, rfl, rfl, rfl⟩
        · rw [if_neg hm, if_neg hm]
          refine LR.use rfl ?_
          refine LR.bindL fun l2 => ?_
          refine LR.bindL fun i => ?_
          by_cases hi : i = m
          · rw [if_pos hi, if_pos hi]; exact rfl
          · rw [if_neg hi, if_neg hi]
            refine LR.use rfl ?_
            refine LR.bindL fun d => ?_
            exact ⟨rfl, rfl, rfl, rfl⟩
  · rw [if_neg hq, if_neg hq]
    exact ⟨rfl, rfl, rfl, rfl⟩

/-- same table, same block as `g` -/
def TabG (g : Nat) (t : GTab) (ht : HashTable) : Prop := t.ht = ht ∧ t.gen = g

theorem linkBlockP_rel (t : GTab) (h q : Nat) (r : Option Nat) (q2 : Nat) :
    LR (TabG t.gen) (linkBlockP t h q r q2) (linkBlock t.ht h q r q2) := by
  unfold linkBlockP linkBlock
  split
  · exact LR.bindL fun head => ⟨rfl, rfl⟩
  · cases r with
    | none => rfl
    | some pp =>
      refine LR.use rfl ?_
      exact LR.bindL fun buf => ⟨rfl, rfl⟩

/-- the table and a pointer into its current block -/
def RoomR (x : GTab × BPtr) (y : HashTable × Nat) : Prop := x.1.ht = y.1 ∧ x.2.gen = x.1.gen ∧ x.2.off = y.2

theorem makeRoomP_rel (junk : Fresh) (t : GTab) (h q : Nat) (r : Option Nat) (space : Nat) :
    LR RoomR (makeRoomP junk t h q (r.map fun i => ⟨t.gen, i⟩) r space) (makeRoom junk t.ht h q r space) := by
  unfold makeRoomP makeRoom
  refine LR.bindL fun rest => ?_
  refine LR.bindL fun lim => ?_
  split
  · refine LR.bindL fun buf => ?_
    refine LR.bindL fun rest => ?_
    refine (linkBlockP_rel _ _ _ _ _).bind ?_
    rintro t' ht' ⟨e1, e2⟩
    exact ⟨e1, rfl, rfl⟩
  · cases r with
    | none => rfl
    | some r => exact ⟨rfl, rfl, rfl⟩

/-- the table (in whatever block) and the returned flag -/
def InsR (x : GTab × Nat) (y : HashTable × Nat) : Prop := x.1.ht = y.1 ∧ x.2 = y.2

theorem insertStringP_rel (junk : Fresh) (t : GTab) (T : Mem Nat) (m p : Nat) :
    LR InsR (insertStringP junk t T m p) (insertString junk t.ht T m p) := by
  unfold insertStringP insertString
  refine LR.bindL fun h => ?_
  refine LR.bindL fun q => ?_
  refine (LR.whileM (insertStepP_rel t T m p) _ (s := (q, none, t.ht.collisions)) ⟨rfl, rfl, rfl, rfl⟩).bind ?_
  intro e' e he
  cases e' with
  | dup c' =>
    cases e with
    | dup c => cases (show c' = c from he); exact ⟨rfl, rfl⟩
    | free => exact he.elim
  | free q' r' pp' c' =>
    cases e with
    | dup c => exact he.elim
    | free q r c =>
      obtain ⟨h1, h2, h3, h4⟩ := he
      subst h1; subst h2; subst h3; subst h4
      simp only
      refine LR.bindL fun lb => ?_
      refine (makeRoomP_rel junk { t with ht := { t.ht with collisions := c' } } h q' pp' _).bind ?_
      rintro ⟨t1, r1⟩ ⟨ht1, o1⟩ ⟨e1, e2, e3⟩
      simp only at e1 e2 e3
      subst e1; subst e3
      refine LR.use e2 ?_
      refine LR.bindL fun buf => ?_
      refine LR.bindL fun rest => ?_
      refine LR.bindL fun rest' => ?_
      exact ⟨rfl, rfl⟩

end HashTable

/-! ## `extract_LMS_strings` -/

/-- same variables -/
def ExR (x : ExStP) (y : ExSt) : Prop := x.s = y

theorem exFoundP_rel (junk : Fresh) (T : Mem Nat) (i : Nat) (s : ExStP) : LR ExR (exFoundP junk T i s) (exFound junk T i s.s) := by
  unfold exFoundP exFound
  refine LR.bindL fun c => ?_
  refine LR.bindL fun C => ?_
  refine (HashTable.insertStringP_rel junk ⟨s.s.ht, s.gen⟩ T _ _).bind ?_
  rintro ⟨t, f⟩ ⟨ht, f'⟩ ⟨e1, e2⟩
  simp only at e1 e2
  subst e1; subst e2
  rfl

theorem exMaybeP_rel (junk : Fresh) (T : Mem Nat) (i : Nat) (s : ExStP) : LR ExR (exMaybeP junk T i s) (exMaybe junk T i s.s) := by
  unfold exMaybeP exMaybe
  split
  · exact exFoundP_rel junk T i s
  · rfl

theorem exStepP_rel (junk : Fresh) (T : Mem Nat) (i : Nat) (s' : ExStP) (s : ExSt) (h : ExR s' s) :
    LR ExR (exStepP junk T i s') (exStep junk T i s) := by
  cases h
  unfold exStepP exStep
  refine LR.bindL fun a => ?_
  refine LR.bindL fun b => ?_
  refine LR.bindL fun M => ?_
  split
  · rfl
  · split
    · refine (exMaybeP_rel junk T i ⟨{ s'.s with M := M }, s'.gen⟩).bind ?_
      intro x y hxy
      cases hxy
      exact LR.bindL fun NL => rfl
    · split
      · exact LR.bindL fun NL => rfl
      · rfl

theorem extractLMSP_rel (junk : Fresh) (T : Mem Nat) (n : Nat) :
    LR (fun c ct => c.ct = ct) (extractLMSP junk T n) (extractLMS junk T n) := by
  unfold extractLMSP extractLMS
  simp only
  split
  · rfl
  · refine LR.bindL fun ht => ?_
    refine LR.bindL fun M => ?_
    refine LR.bindL fun c => ?_
    refine LR.bindL fun M => ?_
    refine LR.bindL fun NL => ?_
    refine LR.bindL fun C => ?_
    refine (LR.loopDown (exStepP_rel junk T) _ rfl).bind ?_
    intro x y hxy
    cases hxy
    rfl

/-! ## `sort_LMS_strings` -/

/-- the array of pointers: all of them into block `g` -/
def PtrsR (g : Nat) (s' : Mem BPtr) (s : Mem Nat) : Prop := s'.size = s.size ∧ ∀ i, s'.data i = ⟨g, s.data i⟩

theorem PtrsR.rd {g : Nat} {s' : Mem BPtr} {s : Mem Nat} (h : PtrsR g s' s) (i : Nat) :
    LR (fun p o => p = ⟨g, o⟩) (plift (s'.rd i)) (s.rd i) := by
  unfold Mem.rd
  rw [h.1]
  split
  · exact h.2 i
  · rfl

theorem PtrsR.wr {g : Nat} {s' : Mem BPtr} {s : Mem Nat} (h : PtrsR g s' s) (i o : Nat) :
    LR (PtrsR g) (plift (s'.wr i ⟨g, o⟩)) (s.wr i o) := by
  unfold Mem.wr
  rw [h.1]
  split
  · refine ⟨h.1, fun j => ?_⟩
    simp only [Mem.upd]
    split
    · rfl
    · exact h.2 j
  · rfl

theorem collectStepP_rel (t : GTab) (x' : Nat × Mem BPtr × Nat) (x : Nat × Mem Nat × Nat)
    (h : x'.1 = x.1 ∧ PtrsR t.gen x'.2.1 x.2.1 ∧ x'.2.2 = x.2.2) :
    LR (SumR (fun x' x : _ × _ × _ => x'.1 = x.1 ∧ PtrsR t.gen x'.2.1 x.2.1 ∧ x'.2.2 = x.2.2)
      (fun y' y => PtrsR t.gen y'.1 y.1 ∧ y'.2 = y.2)) (collectStepP t x') (HashTable.collectStep t.ht.nameBytes t.ht.buf x) := by
  obtain ⟨p', s', j'⟩ := x'
  obtain ⟨p, s, j⟩ := x
  obtain ⟨h1, h2, h3⟩ := h
  simp only at h1 h2 h3
  subst h1; subst h3
  unfold collectStepP HashTable.collectStep
  dsimp only
  by_cases hp : p' ≠ 0
  · rw [if_pos hp, if_pos hp]
    refine LR.use rfl ?_
    refine LR.bindL fun l => ?_
    by_cases h0 : l = 0
    · rw [if_pos h0, if_pos h0]; exact ⟨h2, rfl⟩
    · rw [if_neg h0, if_neg h0]
      by_cases hl2 : l = 2
      · rw [if_pos hl2, if_pos hl2]
        refine LR.use rfl ?_
        refine LR.bindL fun q => ?_
        exact ⟨rfl, h2, rfl⟩
      · rw [if_neg hl2, if_neg hl2]
        refine (h2.wr j' p').bind ?_
        intro u' u hu
        refine LR.use rfl ?_
        refine LR.bindL fun d => ?_
        exact ⟨rfl, hu, rfl⟩
  · rw [if_neg hp, if_neg hp]
    exact ⟨h2, rfl⟩

theorem collectP_rel (t : GTab) {s' : Mem BPtr} {s : Mem Nat} (h : PtrsR t.gen s' s) (j : Nat) :
    LR (fun y' y => PtrsR t.gen y'.1 y.1 ∧ y'.2 = y.2) (collectP t s' j) (HashTable.collect t.ht s j) := by
  unfold collectP HashTable.collect
  refine LR.loopUp ?_ _ _ ⟨h, rfl⟩
  rintro i ⟨u', k'⟩ ⟨u, k⟩ ⟨h1, h2⟩
  simp only at h1 h2
  subst h2
  refine LR.bindL fun p => ?_
  exact LR.whileM (collectStepP_rel t) _ ⟨rfl, h1, rfl⟩

theorem forall2_map {g : Nat} {l' : List BPtr} {l : List Nat} (h : List.Forall₂ (fun p o => p = (⟨g, o⟩ : BPtr)) l' l) :
    l' = l.map fun o => ⟨g, o⟩ := by
  induction h with
  | nil => rfl
  | cons h1 _ ih => rw [h1, ih]; rfl

theorem readRangeP_rel {g : Nat} {s' : Mem BPtr} {s : Mem Nat} (h : PtrsR g s' s) (m : Nat) :
    LR (fun l' l => l' = l.map fun o => (⟨g, o⟩ : BPtr)) (readRangeP s' m) (readRange s m) :=
  (LR.mapM (fun i => h.rd (i + 1)) _).mono fun _ _ h => forall2_map h

theorem mapM_use (g : Nat) (l : List Nat) : (l.map fun o => (⟨g, o⟩ : BPtr)).mapM (fun p => p.use g) = .ok l := by
  induction l with
  | nil => rfl
  | cons a l ih =>
    rw [List.map_cons, List.mapM_cons, ih]
    unfold BPtr.use
    rw [if_pos rfl]
    rfl

theorem sortPtrsP_rel (sorter : Sorter) (t : GTab) (l : List Nat) :
    LR (fun l' l => l' = l.map fun o => (⟨t.gen, o⟩ : BPtr)) (sortPtrsP sorter t (l.map fun o => ⟨t.gen, o⟩))
      (sorter (lmsCompare t.ht.buf) l) := by
  unfold sortPtrsP
  rw [mapM_use]
  show LR _ (plift (sorter (lmsCompare t.ht.buf) l) >>= fun sorted => .ok (sorted.map t.ptr)) _
  cases sorter (lmsCompare t.ht.buf) l <;> rfl

theorem writeRangeP_rel {g : Nat} {s' : Mem BPtr} {s : Mem Nat} (h : PtrsR g s' s) (l : List Nat) :
    LR (PtrsR g) (writeRangeP s' (l.map fun o => ⟨g, o⟩)) (writeRange s l) := by
  unfold writeRangeP writeRange
  rw [List.length_map]
  have key : ∀ (cnt lo : Nat) {s' : Mem BPtr} {s : Mem Nat}, lo + cnt ≤ l.length → PtrsR g s' s →
      LR (PtrsR g) (loopUpP lo cnt s' fun i s => plift (s.wr (i + 1) ((l.map fun o => (⟨g, o⟩ : BPtr)).getD i ⟨0, 0⟩)))
        (loopUp lo cnt s fun i s => s.wr (i + 1) (l.getD i 0)) := by
    intro cnt
    induction cnt with
    | zero => intro lo s' s _ h; exact h
    | succ c ih =>
      intro lo s' s hl h
      unfold loopUpP loopUp
      have e : (l.map fun o => (⟨g, o⟩ : BPtr)).getD lo ⟨0, 0⟩ = ⟨g, l.getD lo 0⟩ := by
        have h1 : lo < l.length := by omega
        simp [List.getD, h1]
      beta_reduce
      rw [e]
      exact (h.wr _ _).bind fun _ _ h' => ih (lo + 1) (by omega) h'
  exact key _ _ (by omega) h

theorem setNamesLoopP_rel (t : GTab) {s' : Mem BPtr} {s : Mem Nat} (h : PtrsR t.gen s' s) (m : Nat) (buf : Mem Nat) :
    LR Eq (setNamesLoopP t s' m buf) (setNamesLoop t.ht.nameBytes s m buf) := by
  unfold setNamesLoopP setNamesLoop
  refine LR.loopUp ?_ _ _ rfl
  intro i b' b hb
  subst hb
  refine (h.rd i).bind ?_
  intro p o hp
  subst hp
  refine LR.use rfl ?_
  exact LR.plift _

theorem sortNamesP_rel (sorter : Sorter) (pj : Nat → Nat) (junk : Fresh) (ct : Container) (t : GTab) :
    LR (fun x y => x.1.ht = y.1 ∧ PtrsR x.1.gen x.2 y.2) (sortNamesP sorter pj junk ct t) (sortNames sorter pj junk ct t.ht) := by
  unfold sortNamesP sortNames
  refine LR.bindL fun ll => ?_
  simp only
  refine LR.bindL fun buf => ?_
  refine (collectP_rel ⟨_, t.gen + 1⟩ (s := ⟨ct.numUnique + 2, pj⟩) ⟨rfl, fun i => rfl⟩ 1).bind ?_
  rintro ⟨s', j'⟩ ⟨s, j⟩ ⟨h1, h2⟩
  simp only at h1 h2
  subst h2
  refine (readRangeP_rel h1 _).bind ?_
  intro l' l hl
  subst hl
  refine (sortPtrsP_rel sorter ⟨_, t.gen + 1⟩ l).bind ?_
  intro l' l hl
  subst hl
  refine (writeRangeP_rel h1 l).bind ?_
  intro s' s hs
  refine (setNamesLoopP_rel ⟨_, t.gen + 1⟩ hs _ _).bind ?_
  intro b' b hb
  subst hb
  exact ⟨rfl, hs⟩

theorem minMaxP_rel {g : Nat} {s' : Mem BPtr} {s : Mem Nat} (h : PtrsR g s' s) (k : Nat) :
    LR (fun x y => x = (⟨g, y.1⟩, ⟨g, y.2⟩)) (minMaxP s' k) (minMax s k) := by
  unfold minMaxP minMax
  refine (h.rd 0).bind ?_
  intro p o hp
  subst hp
  refine LR.loopUp ?_ _ _ rfl
  rintro i x ⟨a, b⟩ hx
  subst hx
  refine (h.rd i).bind ?_
  intro p o hp
  subst hp
  refine LR.lt rfl ?_
  refine LR.lt rfl ?_
  show (_, _) = _
  simp only [decide_eq_true_eq]
  split <;> split <;> rfl

/-- the container, with all its pointers into the current block -/
def CtR (c : CtP) (ct : Container) : Prop := c.ct = ct ∧ c.gMin = c.gen ∧ c.gMax = c.gen ∧ c.gBase = c.gen ∧ c.gLast = c.gen

theorem sortHeadP_rel (T : Mem Nat) (ct : Container) (pos : Nat) (t : GTab) {s' : Mem BPtr} {s : Mem Nat} (h : PtrsR t.gen s' s) :
    LR (fun x y => PtrsR x.2.gen x.1 y.1 ∧ CtR x.2 y.2) (sortHeadP T ct pos t s') (sortHead T ct pos t.ht s) := by
  unfold sortHeadP sortHead
  refine (h.wr _ pos).bind ?_
  intro s' s h
  refine LR.use rfl ?_
  refine LR.bindL fun hd => ?_
  refine (h.wr 0 hd.2.2).bind ?_
  intro s' s h
  refine LR.use rfl ?_
  refine LR.bindL fun buf => ?_
  refine (minMaxP_rel h _).bind ?_
  rintro x ⟨a, b⟩ hx
  subst hx
  refine LR.lt rfl ?_
  refine LR.bindL fun w => ?_
  refine LR.use rfl ?_
  refine LR.bindL fun l => ?_
  refine LR.bindL fun fc => ?_
  refine LR.lt rfl ?_
  exact ⟨h, rfl, rfl, rfl, rfl, rfl⟩

theorem sortLMSP_rel (sorter : Sorter) (pj : Nat → Nat) (junk : Fresh) (T : Mem Nat) (c : CtP) :
    LR (fun x y => PtrsR x.2.gen x.1 y.1 ∧ CtR x.2 y.2) (sortLMSP sorter pj junk T c) (sortLMS sorter pj junk T c.ct) := by
  unfold sortLMSP sortLMS
  cases c.ct.hashtable with
  | none => rfl
  | some ht =>
    simp only
    refine (sortNamesP_rel sorter pj junk c.ct ⟨ht, c.gen⟩).bind ?_
    rintro ⟨t, s'⟩ ⟨ht', s⟩ ⟨h1, h2⟩
    simp only at h1 h2
    subst h1
    exact sortHeadP_rel T c.ct _ t h2

/-! ## `bwt_is` -/

section
variable {S : Type} [SaStore S]
open SaStore

theorem toPointersP_rel (sj : BitVec 64) {c : CtP} {ct : Container} (hc : CtR c ct) (buf : Mem Nat) {s' : Mem BPtr} {s : Mem Nat}
    (h : PtrsR c.gen s' s) (T1 : PackedArray) (cnt : Nat) (sa : S) :
    LR Eq (toPointersP sj c buf s' T1 cnt sa) (toPointers sj buf ct.bwpBase s T1 cnt sa) := by
  obtain ⟨e0, _, _, e1, _⟩ := hc
  unfold toPointersP toPointers
  refine LR.loopUp ?_ _ _ rfl
  intro i a' a ha
  subst ha
  split
  · split
    · refine LR.bindL fun v => ?_
      refine (h.rd _).bind ?_
      intro p o hp
      subst hp
      refine LR.use rfl ?_
      refine LR.bindL fun l => ?_
      refine LR.bindL fun fc => ?_
      rw [if_pos e1.symm, e0]
      exact LR.plift _
    · rfl
  · rfl

theorem branchP_rel (S : Type) [SaStore S] (w : World) {c : CtP} {ct : Container} (hc : CtR c ct) {s' : Mem BPtr} {s : Mem Nat}
    (h : PtrsR c.gen s' s) (T1 : PackedArray) (ht : HashTable) : LR Eq (branchP S w s' T1 ht c) (branch S w s T1 ht ct) := by
  have hc' := hc
  obtain ⟨e0, _, _, e1, e2⟩ := hc'
  unfold branchP branch
  simp only [e0]
  refine LR.bindL fun st => ?_
  refine LR.bindL fun sa => ?_
  refine (toPointersP_rel w.sj hc ht.buf h T1 _ sa).bind ?_
  intro sa' sa hsa
  subst hsa
  unfold induceBwtP
  rw [if_pos ⟨e1, e2⟩, e0]
  exact LR.plift _

end

theorem someP_rel {α : Type _} {X : PM α} {x : M α} (h : LR Eq X x) : LR Eq (someP X) (some <$> x) := by
  rw [h.eq]
  cases x <;> rfl

theorem finishP_rel (w : World) {c : CtP} {ct : Container} (hc : CtR c ct) {s' : Mem BPtr} {s : Mem Nat}
    (h : PtrsR c.gen s' s) (T1 : PackedArray) : LR Eq (finishP w s' T1 c) (finish w s T1 ct) := by
  have e0 := hc.1
  unfold finishP finish
  rw [e0]
  cases ct.hashtable with
  | none => rfl
  | some ht =>
    simp only
    refine LR.bindL fun bits => ?_
    split
    · exact someP_rel (branchP_rel _ w hc h T1 ht)
    · split
      · exact someP_rel (branchP_rel _ w hc h T1 ht)
      · split
        · exact someP_rel (branchP_rel _ w hc h T1 ht)
        · split
          · exact someP_rel (branchP_rel _ w hc h T1 ht)
          · split
            · exact someP_rel (branchP_rel _ w hc h T1 ht)
            · rfl

theorem bwtIsP_rel (w : World) (T : Mem Nat) (n : Nat) (freeT : Bool) : LR Eq (bwtIsP w T n freeT) (bwtIs w T n freeT) := by
  unfold bwtIsP bwtIs
  refine (extractLMSP_rel w.junk T n).bind ?_
  intro c ct hc
  subst hc
  refine (sortLMSP_rel w.sorter w.pj w.junk T c).bind ?_
  rintro ⟨s', c'⟩ ⟨s, ct'⟩ ⟨h1, h2⟩
  simp only at h1 h2
  have e0 := h2.1
  simp only [e0]
  refine LR.bindL fun T1 => ?_
  refine (finishP_rel w h2 h1 T1).bind ?_
  intro b' b hb
  subst hb
  rfl

/-! ## The theorems -/

/-- **C56** the program in which every pointer into the buffer of the table knows its block does exactly what the model with
offsets does: for every argument (also invalid ones), every contents of memory, every `std::sort`. -/
theorem C56_blocks_do_not_matter (w : World) (T : Option (Mem Nat)) (n : Nat) (freeT : Bool) :
    bwtStringP w T n freeT = plift (bwtString w T n freeT) := by
  unfold bwtStringP bwtString
  cases T with
  | none => rfl
  | some T =>
    simp only
    split
    · rfl
    · exact (bwtIsP_rel w T n freeT).eq

/-- **C56** `bwt_string` never uses a pointer into a buffer that `realloc` has released, and never compares or subtracts
pointers into different buffers. -/
theorem C56_no_stale_pointer (w : World) (T : Option (Mem Nat)) (n : Nat) (freeT : Bool) :
    bwtStringP w T n freeT ≠ .error .stale := by
  rw [C56_blocks_do_not_matter]
  cases bwtString w T n freeT <;> exact fun h => nomatch h

/-- **C56** for the public `insert_string` alone: any table, any string. -/
theorem C56_insert_no_stale_pointer (junk : Fresh) (t : GTab) (T : Mem Nat) (m p : Nat) :
    HashTable.insertStringP junk t T m p ≠ .error .stale := by
  intro h
  have := HashTable.insertStringP_rel junk t T m p
  rw [h] at this
  cases hx : HashTable.insertString junk t.ht T m p <;> rw [hx] at this <;> exact this.elim

/-! ### The blocks are distinguished -/

theorem PM.bind_inv {α β : Type _} {x : PM α} {f : α → PM β} {b : β} (h : x >>= f = .ok b) : ∃ a, x = .ok a ∧ f a = .ok b := by
  cases x with
  | ok a => exact ⟨a, rfl, h⟩
  | error e => exact nomatch h

theorem HashTable.linkBlockP_gen {t t' : GTab} {h q : Nat} {pp : Option Nat} {q2 : Nat} (e : HashTable.linkBlockP t h q pp q2 = .ok t') :
    t'.gen = t.gen ∧ t'.ht.bufsize = t.ht.bufsize := by
  unfold HashTable.linkBlockP at e
  split at e
  · obtain ⟨_, _, e⟩ := PM.bind_inv e; cases e; exact ⟨rfl, rfl⟩
  · split at e
    · exact nomatch e
    · obtain ⟨_, _, e⟩ := PM.bind_inv e
      obtain ⟨_, _, e⟩ := PM.bind_inv e; cases e; exact ⟨rfl, rfl⟩

/-- **C56** `insert_string` gets a new block exactly when it makes the buffer larger: a pointer formed before such a call is stale
after it. -/
theorem C56_growing_moves (junk : Fresh) (t t' : GTab) (T : Mem Nat) (m p r : Nat)
    (e : HashTable.insertStringP junk t T m p = .ok (t', r)) :
    (t'.ht.bufsize = t.ht.bufsize ∧ ∀ i, (t.ptr i).use t'.gen = .ok i) ∨
    (t.ht.bufsize < t'.ht.bufsize ∧ ∀ i, (t.ptr i).use t'.gen = .error .stale) := by
  have key : (t'.ht.bufsize = t.ht.bufsize ∧ t'.gen = t.gen) ∨ (t.ht.bufsize < t'.ht.bufsize ∧ t'.gen = t.gen + 1) := by
    unfold HashTable.insertStringP at e
    obtain ⟨h, _, e⟩ := PM.bind_inv e
    obtain ⟨q, _, e⟩ := PM.bind_inv e
    obtain ⟨x, _, e⟩ := PM.bind_inv e
    cases x with
    | dup c => cases e; exact .inl ⟨rfl, rfl⟩
    | free q r pp c =>
      simp only at e
      obtain ⟨lb, _, e⟩ := PM.bind_inv e
      obtain ⟨x, ex, e⟩ := PM.bind_inv e
      obtain ⟨_, _, e⟩ := PM.bind_inv e
      obtain ⟨_, _, e⟩ := PM.bind_inv e
      obtain ⟨_, _, e⟩ := PM.bind_inv e
      obtain ⟨_, _, e⟩ := PM.bind_inv e
      cases e
      simp only
      unfold HashTable.makeRoomP at ex
      obtain ⟨_, _, ex⟩ := PM.bind_inv ex
      obtain ⟨_, _, ex⟩ := PM.bind_inv ex
      split at ex
      · obtain ⟨_, _, ex⟩ := PM.bind_inv ex
        obtain ⟨_, _, ex⟩ := PM.bind_inv ex
        obtain ⟨t2, el, ex⟩ := PM.bind_inv ex
        obtain ⟨g1, g2⟩ := HashTable.linkBlockP_gen el
        cases ex
        refine .inr ⟨?_, g1⟩
        simp only at g2 ⊢
        unfold HashTable.spaceRequired at g2
        omega
      · split at ex
        · exact nomatch ex
        · cases ex; exact .inl ⟨rfl, rfl⟩
  rcases key with ⟨h1, h2⟩ | ⟨h1, h2⟩
  · exact .inl ⟨h1, fun i => if_pos h2.symm⟩
  · exact .inr ⟨h1, fun i => if_neg (show t.gen ≠ t'.gen from by omega)⟩

/-- **C56** the enlargement of the buffer by `sort_LMS_strings` gives a new block: pointers formed before are stale. -/
theorem C56_sort_moves (sorter : Sorter) (pj : Nat → Nat) (junk : Fresh) (ct : Container) (t t' : GTab) (s : Mem BPtr)
    (e : sortNamesP sorter pj junk ct t = .ok (t', s)) :
    t.ht.bufsize < t'.ht.bufsize ∧ ∀ i, (t.ptr i).use t'.gen = .error .stale := by
  unfold sortNamesP at e
  obtain ⟨_, _, e⟩ := PM.bind_inv e
  obtain ⟨_, _, e⟩ := PM.bind_inv e
  obtain ⟨_, _, e⟩ := PM.bind_inv e
  obtain ⟨_, _, e⟩ := PM.bind_inv e
  obtain ⟨_, _, e⟩ := PM.bind_inv e
  obtain ⟨_, _, e⟩ := PM.bind_inv e
  obtain ⟨_, _, e⟩ := PM.bind_inv e
  cases e
  simp only
  exact ⟨by omega, fun i => if_neg (show t.gen ≠ t.gen + 1 from by omega)⟩

/-- The outcome `stale` is not vacuous: a pointer kept over a `realloc` is stale. -/
example (ht : HashTable) : (GTab.ptr ⟨ht, 3⟩ 17).use 4 = .error .stale := rfl

/-- "banana": the buffer is moved twice (by the first string inserted and by `sort_LMS_strings`), and the call returns the transform. -/
example (w : World) (h : w.junk = ⟨fun i => 2 * i + 1, 40000000⟩) (hs : w.sorter = insSort) :
    ∃ r T', bwtStringP w (some (cString banana)) 6 true = .ok (some r, T') ∧ IsBWT banana r.bwt.data r.last := by
  obtain ⟨r, e, _, h2⟩ := bwtString_good w (T := cString banana) (s := banana) (by rw [h, hs]; exact banana_good) true
  exact ⟨r, _, by rw [C56_blocks_do_not_matter, show (6 : Nat) = banana.length from rfl, e]; rfl, h2⟩

end Flbwt
