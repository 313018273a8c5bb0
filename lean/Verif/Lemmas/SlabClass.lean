import Verif.Model.Slabs
/-!
# Size classes of the small memory allocator
-/
namespace Verif.Slabs

theorem classInfo_eq : classInfo =
    some [⟨8, 0, 0⟩, ⟨16, 1024, 128⟩, ⟨32, 3072, 256⟩, ⟨64, 7168, 384⟩, ⟨128, 15360, 512⟩, ⟨256, 31744, 640⟩, ⟨0, 49152, 708⟩] := by
  decide

/-- The number of classes is one more than the last entry of the table says, slabs.c 336-337. -/
theorem numClasses_eq : classInfo.bind (fun l => l.getLast?.map fun c => c.tocnt + 1) = some numClasses := by
  decide

/-- The class a free slot of a length is in. -/
def cf (n : Nat) : Nat :=
  if n < 1024 then n / 8 else if n < 3072 then 128 + (n - 1024) / 16 else if n < 7168 then 256 + (n - 3072) / 32
  else if n < 15360 then 384 + (n - 7168) / 64 else if n < 31744 then 512 + (n - 15360) / 128
  else if n < 49152 then 640 + (n - 31744) / 256 else 708

/-- The class a used slot of a length is in. -/
def cc (n : Nat) : Nat :=
  if n < 1024 then (n + 7) / 8 else if n < 3072 then 128 + (n - 1024 + 15) / 16 else if n < 7168 then 256 + (n - 3072 + 31) / 32
  else if n < 15360 then 384 + (n - 7168 + 63) / 64 else if n < 31744 then 512 + (n - 15360 + 127) / 128
  else if n < 49152 then 640 + (n - 31744 + 255) / 256 else 708

theorem memid_false (n : Nat) (h : n % 8 = 0) : memid n false = some (cf n) := by
  simp only [memid, h, classInfo_eq, clsOf, maxSlot, numClasses, cf]
  by_cases h6 : 49152 ≤ n
  · simp [h6, show ¬ n < 1024 by omega, show ¬ n < 3072 by omega, show ¬ n < 7168 by omega, show ¬ n < 15360 by omega,
      show ¬ n < 31744 by omega, show ¬ n < 49152 by omega]
  by_cases h1 : 1024 ≤ n <;> by_cases h2 : 3072 ≤ n <;> by_cases h3 : 7168 ≤ n <;> by_cases h4 : 15360 ≤ n <;> by_cases h5 : 31744 ≤ n <;>
    first
    | omega
    | (simp [h1, h2, h3, h4, h5, h6, Nat.not_lt, Nat.not_le] <;> (repeat' split) <;> omega)

theorem memid_true (n : Nat) (h : n % 8 = 0) : memid n true = some (cc n) := by
  simp only [memid, h, classInfo_eq, clsOf, maxSlot, numClasses, cc]
  by_cases h6 : 49152 ≤ n
  · simp [h6, show ¬ n < 1024 by omega, show ¬ n < 3072 by omega, show ¬ n < 7168 by omega, show ¬ n < 15360 by omega,
      show ¬ n < 31744 by omega, show ¬ n < 49152 by omega]
  by_cases h1 : 1024 ≤ n <;> by_cases h2 : 3072 ≤ n <;> by_cases h3 : 7168 ≤ n <;> by_cases h4 : 15360 ≤ n <;> by_cases h5 : 31744 ≤ n <;>
    first
    | omega
    | (simp [h1, h2, h3, h4, h5, h6, Nat.not_lt, Nat.not_le] <;> (repeat' split) <;> omega)

theorem cf_lt (n : Nat) : cf n < 709 := by
  unfold cf; (repeat' split) <;> omega

theorem cc_lt (n : Nat) : cc n < 709 := by
  unfold cc; (repeat' split) <;> omega

theorem cf_big {n : Nat} : cf n = 708 ↔ 49152 ≤ n := by
  unfold cf; (repeat' split) <;> omega

/-- What is in a class at or above that of a size is large enough. -/
theorem le_of_class {s n : Nat} (hs : s ≤ 49152) (h : cc s ≤ cf n) : s ≤ n := by
  unfold cc cf at h
  (repeat' split at h) <;> omega

/-- The class of the double of a size is not below that of the size. -/
theorem cc_le_double {s : Nat} (h1 : 32 ≤ s) (h2 : s % 8 = 0) : cc s ≤ cf (s * 2) := by
  unfold cc cf
  (repeat' split) <;> omega

theorem slen_spec (size : Nat) : slen size % 8 = 0 ∧ 32 ≤ slen size ∧ size + 4 ≤ slen size := by
  unfold slen minSlot
  simp only
  split <;> omega

theorem slen_le {size : Nat} (h : size ≤ 49148) : slen size ≤ 49152 := by
  unfold slen minSlot
  simp only
  split <;> omega

end Verif.Slabs
