import Mathlib.Data.List.Induction
import Verif.HashTab

/-!
# The blocks of the table of LMS-strings, as a function of the strings

Which strings open a new block of the buffer, and how large the buffer gets, depends only on the strings and the order in
which they are inserted. This is a specification (used by C93), not a model of code: `plan` knows nothing of the buffer.
-/

namespace Flbwt

open HashTable (hashL nb)

/-- `left h`: bytes left in the last block of bucket `h`; `size`: bytes of the buffer; `seen`: the different strings inserted. -/
structure Plan where
  left : Nat → Nat
  size : Nat
  seen : List (List Nat)

/-- The empty table. -/
def Plan.empty : Plan := ⟨fun _ => 0, 0, []⟩

/-- The bytes of a record: two bytes, the digits of the length to base 256, the string, and `NB` bytes for the name. -/
def recordBytes (NB : Nat) (w : List Nat) : Nat := 2 + nb w.length + w.length + NB

/-- The string `w` does not fit into the last block of its bucket (twelve bytes have to stay free). -/
def Plan.Opens (NB : Nat) (P : Plan) (w : List Nat) : Prop := P.left (hashL 67777 w) ≤ recordBytes NB w + 12

instance (NB : Nat) (P : Plan) (w : List Nat) : Decidable (P.Opens NB w) := by unfold Plan.Opens; infer_instance

/-- The string `w` is inserted. A new block has 512 bytes more than the record. -/
def Plan.add (NB : Nat) (P : Plan) (w : List Nat) : Plan :=
  if w ∈ P.seen then P
  else if P.Opens NB w then
    ⟨fun h => if h = hashL 67777 w then 512 else P.left h, P.size + 512 + recordBytes NB w, P.seen ++ [w]⟩
  else ⟨fun h => if h = hashL 67777 w then P.left h - recordBytes NB w else P.left h, P.size, P.seen ++ [w]⟩

/-- The strings `ws` are inserted one after the other. -/
def plan (NB : Nat) (ws : List (List Nat)) : Plan := ws.foldl (Plan.add NB) Plan.empty

theorem plan_snoc (NB : Nat) (ws : List (List Nat)) (w : List Nat) : plan NB (ws ++ [w]) = (plan NB ws).add NB w := by
  unfold plan; rw [List.foldl_append]; rfl

theorem plan_seen (NB : Nat) (ws : List (List Nat)) (w : List Nat) : w ∈ (plan NB ws).seen ↔ w ∈ ws := by
  induction ws using List.reverseRecOn with
  | nil => exact Iff.rfl
  | append_singleton ws x ih =>
    rw [plan_snoc, List.mem_append, List.mem_singleton, ← ih]
    unfold Plan.add
    split
    · rename_i h
      constructor
      · exact Or.inl
      · rintro (h' | rfl)
        · exact h'
        · exact h
    · split <;> simp only [List.mem_append, List.mem_singleton]

/-- The layout of a table that holds the strings `ws`. Used in proofs only. -/
structure TabLay (ht : HashTable) (ws : List (List Nat)) : Prop where
  left : ∀ h, h < 67777 → ht.rest.data h = (plan ht.nameBytes ws).left h
  size : ht.bufsize = (plan ht.nameBytes ws).size

end Flbwt
