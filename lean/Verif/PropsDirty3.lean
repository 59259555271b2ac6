import Verif.PropsDirty2
import Verif.PropsFileFail

/-!
# Property C91 for files
-/

namespace Flbwt

section
variable (h : Host) (inp out : String) (s : FState)

/-- **C91** (violated expectation) `bwt_file` on a file whose only S* string has a length that is a multiple of 256 but not of
65536, when the bytes `realloc` hands out are between 1 and 11: `runtime_error` leaves `bwt_file`, no output exists. -/
theorem C91_valid_file_rejected (w : World) {content : List Nat} (h3 : 3 ≤ content.length) (h57 : content.length < 2 ^ 57)
    (hb : ∀ c ∈ content, c < 256) (hS : SortsOK w.sorter) (p : Nat) (hp : ∀ q, SStar content q ↔ q = p)
    (hm : (content.length - p + 1) % 256 = 0) (hm2 : (content.length - p + 1) % 65536 ≠ 0) (hhead : (p + 1) % 256 ≠ 0)
    (hjunk : ∀ i, 1 ≤ w.junk i % 256 ∧ w.junk i % 256 ≤ 11) (hroom : enoughFor content.length ≤ w.junk.lim)
    (hf : s.files inp = some content) (hr : h.mayRead inp = true) (ht : h.tell content = content.length)
    (hma : h.mallocOk (content.length + 1) = true) (hk : content.length ≤ h.readMax) :
    ∃ s', bwtFile w h inp out s = (.error (.throw .runtimeError), s') ∧ s'.files = s.files :=
  C75_failed_transform h inp out s w hf hr ht hma hk (by omega) (by omega) _
    (fun T hT => C91_valid_string_rejected w T content h3 h57 hb hT hS p hp hm hm2 hhead hjunk hroom true)

/-- **C91** the files `b a c c ... c` (`a < b`, `a < c`) of `n` bytes, `n` a multiple of 256 but not of 65536. -/
theorem C91_bac_file (w : World) (a b c n : Nat) (hab : a < b) (hac : a < c) (hb : b < 256) (hc : c < 256) (hn : n < 2 ^ 57)
    (h0 : 0 < n) (hm : n % 256 = 0) (hm2 : n % 65536 ≠ 0) (hS : SortsOK w.sorter)
    (hjunk : ∀ i, 1 ≤ w.junk i % 256 ∧ w.junk i % 256 ≤ 11) (hroom : enoughFor n ≤ w.junk.lim)
    (hf : s.files inp = some (b :: a :: List.replicate (n - 2) c)) (hr : h.mayRead inp = true)
    (ht : h.tell (b :: a :: List.replicate (n - 2) c) = n) (hma : h.mallocOk (n + 1) = true) (hk : n ≤ h.readMax) :
    ∃ s', bwtFile w h inp out s = (.error (.throw .runtimeError), s') ∧ s'.files = s.files := by
  have hl : (b :: a :: List.replicate (n - 2) c).length = n := by
    simp only [List.length_cons, List.length_replicate]; omega
  exact C91_valid_file_rejected h inp out s w (by omega) (by omega) (bac_bytes hb hc hab) hS 1
    (fun q => sstar_bac hab hac (by omega) q) (by rw [hl]; omega) (by rw [hl]; omega) (by omega) hjunk (by rw [hl]; exact hroom)
    hf hr (by rw [hl]; exact ht) (by rw [hl]; exact hma) (by rw [hl]; exact hk)

/-- "ba" and 254 times "c", fresh bytes 1 -/
example : ∃ s', bwtFile ⟨⟨fun _ => 1, 40000000⟩, fun _ => 9, fun _ => 5, fun _ => 7, fun _ _ => 1, fun _ _ _ _ => 2, fun _ => 3, 4, insSort⟩
    niceHost "in" "out" { niceFiles with files := fun f => if f = "in" then some (98 :: 97 :: List.replicate (256 - 2) 99) else none } =
      (.error (.throw .runtimeError), s') ∧
      s'.files = fun f => if f = "in" then some (98 :: 97 :: List.replicate (256 - 2) 99) else none :=
  C91_bac_file niceHost "in" "out" _ _ 97 98 99 256 (by omega) (by omega) (by omega) (by omega) (by omega) (by omega) (by omega)
    (by omega) insSort_ok (fun _ => by simp) (by decide) rfl rfl
    (congrArg Nat.cast (by simp only [List.length_cons, List.length_replicate])) rfl (by decide)

end

end Flbwt
