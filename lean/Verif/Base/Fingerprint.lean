/-!
# Model of `base/fingerprint2011.hpp` and C06
-/

namespace Principia.Fingerprint

/-- base/fingerprint2011.hpp:31-41 `FingerprintCat2011`, exact (`std::uint64_t` is `BitVec 64`). -/
def fingerprintCat (fp1 fp2 : BitVec 64) : BitVec 64 :=
  let mul1 : BitVec 64 := 0xC6A4A7935BD1E995#64
  let mul2 : BitVec 64 := 0x228876A7198B743#64
  let a := fp1 * mul1 + fp2 * mul2
  a + (~~~a >>> 47)

/-- The value of 8 consecutive bytes read as a little-endian `std::uint64_t` (all the platforms supported are
little-endian): base/fingerprint2011.hpp:51-52. -/
def le64 (bs : List (BitVec 8)) : BitVec 64 :=
  bs.foldr (fun b acc => (acc <<< 8) ||| b.setWidth 64) 0

/-- base/fingerprint2011.hpp:58-62: the loop on the bytes of the suffix.  `*bytes` is a (signed) `char`, hence the sign
extension. -/
def suffix (bs : List (BitVec 8)) : BitVec 64 :=
  bs.foldl (fun acc b => (acc + b.signExtend 64) <<< 8) 0

/-- base/fingerprint2011.hpp:46-64 `Fingerprint2011`. -/
def fingerprint (fp : BitVec 64) (bytes : List (BitVec 8)) : BitVec 64 :=
  if 8 ≤ bytes.length then
    fingerprint (fingerprintCat fp (le64 (bytes.take 8))) (bytes.drop 8)
  else fingerprintCat fp (suffix bytes)
termination_by bytes.length
decreasing_by simp only [List.length_drop]; omega

/-- base/fingerprint2011.hpp:48: the initial value. -/
def fingerprint2011 (bytes : List (BitVec 8)) : BitVec 64 := fingerprint 0xA5B85C5E198ED849#64 bytes

theorem add_not_shift_ne (a : BitVec 64) : a + (~~~a >>> 47) ≠ 0#64 ∧ a + (~~~a >>> 47) ≠ 1#64 := by
  have key : (a + (~~~a >>> 47)).toNat = (a.toNat + (2 ^ 64 - 1 - a.toNat) / 2 ^ 47) % 2 ^ 64 := by
    rw [BitVec.toNat_add, BitVec.toNat_ushiftRight, BitVec.toNat_not, Nat.shiftRight_eq_div_pow]
  have ha := a.isLt
  have hdm := Nat.div_add_mod (2 ^ 64 - 1 - a.toNat) (2 ^ 47)
  have hml := Nat.mod_lt (2 ^ 64 - 1 - a.toNat) (Nat.two_pow_pos 47)
  generalize (2 ^ 64 - 1 - a.toNat) / 2 ^ 47 = q at *
  generalize (2 ^ 64 - 1 - a.toNat) % 2 ^ 47 = r at *
  have hno : a.toNat + q < 2 ^ 64 := by omega
  rw [Nat.mod_eq_of_lt hno] at key
  constructor <;> intro h <;> rw [h] at key <;> simp at key <;> omega

/-- **C06**: combining two fingerprints never produces one of the reserved values 0 and 1. -/
theorem C06_fingerprintCat (fp1 fp2 : BitVec 64) :
    fingerprintCat fp1 fp2 ≠ 0#64 ∧ fingerprintCat fp1 fp2 ≠ 1#64 :=
  add_not_shift_ne _

/-- **C06**: the fingerprint of a byte string of any length and content is never 0 or 1. -/
theorem C06_fingerprint (bytes : List (BitVec 8)) :
    fingerprint2011 bytes ≠ 0#64 ∧ fingerprint2011 bytes ≠ 1#64 := by
  unfold fingerprint2011
  generalize 0xA5B85C5E198ED849#64 = fp
  fun_induction fingerprint fp bytes with
  | case1 fp bytes h ih => exact ih
  | case2 fp bytes h => exact C06_fingerprintCat _ _

/-- The sum before the correction can be 0: the correction is needed. -/
example : ∃ fp1 fp2 : BitVec 64, fp1 * 0xC6A4A7935BD1E995#64 + fp2 * 0x228876A7198B743#64 = 0#64 := ⟨0, 0, by decide⟩

example : fingerprint2011 [1#8, 2#8, 255#8] ≠ 0#64 := (C06_fingerprint _).1

end Principia.Fingerprint
