import Verif.Astronomy.RecurrenceModel
import Verif.Base.ModProps
import Mathlib.Tactic.Ring
import Mathlib.Tactic.Linarith
import Mathlib.Tactic.FieldSimp
import Mathlib.Tactic.NormNum
import Mathlib.Tactic.Positivity
import Mathlib.Tactic.ByContra
import Mathlib.Tactic.LinearCombination
import Mathlib.Data.Int.GCD
import Mathlib.RingTheory.Coprime.Lemmas

/-!
# C29 and C30: recurrence of the ground track of an orbit
-/

set_option linter.unusedSimpArgs false
set_option linter.unusedVariables false

namespace Principia.Recurrence
open Principia.Mod

namespace Spec

/-- astronomy/orbit_recurrence.hpp:42-46: the conditions on the Capderou triple. -/
def Valid (ν D C : ℤ) : Prop :=
  C ≠ 0 ∧ (ν ≠ 0 → (0 < ν ↔ 0 < C)) ∧ 2 * |D| ≤ |C| ∧ IsCoprime D C

/-- After n revolutions, the satellite crosses the equator n shifts east of the origin; the primary has then made E turns, up to one grid
interval: the ground track passes one grid interval from the origin after about E days. -/
def PassesNear (r : Recurrence) (E : ℤ) : Prop :=
  ∃ n : ℤ, |n * r.equatorialShift - -E| = |r.gridInterval|

end Spec

open Spec

theorem isMod_tmod (a b : ℤ) (hb0 : b ≠ 0) : IsMod a b 0 ((a.tmod b + b).tmod b) := by
  obtain ⟨⟨k, hk⟩, hlo, hhi⟩ := tmod_cases a b hb0
  obtain ⟨⟨l, hl⟩, hlo', hhi'⟩ := tmod_cases (a.tmod b + b) b hb0
  refine ⟨⟨k + l - 1, ?_⟩, ?_, ?_⟩
  · have : b * (k + l - 1) = b * k + b * l - b := by ring
    omega
  · intro hpos
    have h0 : 0 ≤ a.tmod b + b := by omega
    have := Int.tmod_nonneg b h0
    omega
  · intro hneg
    have h0 : a.tmod b + b ≤ 0 := by omega
    have h1 : 0 ≤ (-(a.tmod b + b)).tmod b := Int.tmod_nonneg b (by omega)
    rw [Int.neg_tmod] at h1
    omega

theorem mod2_sound (a b r : ℤ) (h : mod2 a b = some r) : b ≠ 0 ∧ IsMod a b 0 r := by
  unfold mod2 cppRem ck at h
  by_cases hb : b = 0
  · simp [hb] at h
  · simp only [hb, if_false, Option.bind_eq_bind, Option.bind_eq_some_iff, Option.ite_none_right_eq_some,
      Option.some.injEq] at h
    obtain ⟨x, ⟨_, rfl⟩, y, ⟨_, rfl⟩, ⟨_, rfl⟩⟩ := h
    exact ⟨hb, isMod_tmod a b hb⟩

/-- The termination condition of the loop. -/
def Stops (D C E : ℤ) : Prop := C ∣ E * D - 1 ∨ C ∣ E * D + 1

theorem sgn_mul (C : ℤ) : sgn C = 1 ∧ 0 ≤ C ∨ sgn C = -1 ∧ C < 0 := by
  unfold sgn; split <;> omega

theorem mod_eq_iff (p C s r : ℤ) (h : mod2 p C = some r) (hC : 2 ≤ |C|) (hs : 0 < C ∧ s = 1 ∨ C < 0 ∧ s = -1) :
    r = s ↔ C ∣ p - s := by
  obtain ⟨h0, hm⟩ := mod2_sound p C r h
  constructor
  · rintro rfl; exact hm.1
  · intro hd
    refine IsMod_unique h0 hm ⟨hd, ?_, ?_⟩
    · intro hp; rw [abs_of_pos hp] at hC; omega
    · intro hn; rw [abs_of_neg hn] at hC; omega

/-- What the loop returns. -/
theorem loop_sound (D C : ℤ) (hC : 2 ≤ |C|) (fuel : ℕ) (k : ℕ) (E : ℤ)
    (h : subcycleLoop D C (sgn C) fuel (sgn C * k) = some E) :
    ∃ m : ℕ, k ≤ m ∧ E = sgn C * m ∧ Stops D C E ∧ ∀ i : ℕ, k ≤ i → i < m → ¬ Stops D C (sgn C * i) := by
  have hC0 : C ≠ 0 := by rintro rfl; simp at hC
  have hs : 0 < C ∧ sgn C = 1 ∨ C < 0 ∧ sgn C = -1 := by
    rcases sgn_mul C with ⟨a, b⟩ | ⟨a, b⟩
    · left; exact ⟨by omega, a⟩
    · right; exact ⟨b, a⟩
  induction fuel generalizing k with
  | zero => simp [subcycleLoop] at h
  | succ fuel ih =>
    unfold subcycleLoop at h
    simp only [Option.bind_eq_bind, Option.bind_eq_some_iff] at h
    obtain ⟨p, hp, a, ha, h⟩ := h
    have hp' : p = sgn C * k * D := by
      unfold ck at hp; simp only [Option.ite_none_right_eq_some, Option.some.injEq] at hp; exact hp.2.symm
    have e1 := mod_eq_iff p C (sgn C) a ha hC hs
    have key1 : C ∣ p - sgn C ↔ (sgn C = 1 ∧ C ∣ sgn C * k * D - 1 ∨ sgn C = -1 ∧ C ∣ sgn C * k * D + 1) := by
      rw [hp']
      rcases hs with ⟨_, s⟩ | ⟨_, s⟩ <;> rw [s] <;> simp
    split at h
    · rename_i has
      simp only [Option.some.injEq] at h
      refine ⟨k, le_rfl, h.symm, ?_, fun i h1 h2 => by omega⟩
      rw [← h]
      rcases key1.1 (e1.1 has) with hh | hh
      · exact Or.inl hh.2
      · exact Or.inr hh.2
    · rename_i has
      simp only [Option.bind_eq_some_iff] at h
      obtain ⟨C', hC', b, hb, h⟩ := h
      have hC'' : C' = -C := by
        unfold ck at hC'; simp only [Option.ite_none_right_eq_some, Option.some.injEq] at hC'; exact hC'.2.symm
      subst hC''
      have e2 := mod_eq_iff p (-C) (-sgn C) b hb (by rwa [abs_neg]) (by omega)
      have key2 : -C ∣ p - -sgn C ↔ (sgn C = 1 ∧ C ∣ sgn C * k * D + 1 ∨ sgn C = -1 ∧ C ∣ sgn C * k * D - 1) := by
        rw [hp', neg_dvd]
        rcases hs with ⟨_, s⟩ | ⟨_, s⟩ <;> rw [s] <;> simp [sub_eq_add_neg]
      split at h
      · rename_i hbs
        simp only [Option.some.injEq] at h
        refine ⟨k, le_rfl, h.symm, ?_, fun i h1 h2 => by omega⟩
        rw [← h]
        rcases key2.1 (e2.1 hbs) with hh | hh
        · exact Or.inr hh.2
        · exact Or.inl hh.2
      · rename_i hbs
        simp only [Option.bind_eq_some_iff] at h
        obtain ⟨E', hE', h⟩ := h
        have hE'' : E' = sgn C * (k + 1 : ℕ) := by
          unfold ck at hE'; simp only [Option.ite_none_right_eq_some, Option.some.injEq] at hE'
          rw [← hE'.2]; push_cast; ring
        subst hE''
        obtain ⟨m, h1, h2, h3, h4⟩ := ih (k + 1) h
        refine ⟨m, by omega, h2, h3, ?_⟩
        intro i hi him
        by_cases hik : i = k
        · subst hik
          intro hst
          have n1 : ¬ C ∣ p - sgn C := fun hh => has (e1.2 hh)
          have n2 : ¬ -C ∣ p - -sgn C := fun hh => hbs (e2.2 hh)
          rw [key1] at n1
          rw [key2] at n2
          rcases hs with ⟨_, s⟩ | ⟨_, s⟩ <;> rcases hst with hh | hh
          · exact n1 (Or.inl ⟨s, hh⟩)
          · exact n2 (Or.inl ⟨s, hh⟩)
          · exact n2 (Or.inr ⟨s, hh⟩)
          · exact n1 (Or.inr ⟨s, hh⟩)
        · exact h4 i (by omega) him

/-- Bézout: a suitable number of days is found before half a cycle. -/
theorem exists_stop (D C : ℤ) (hC : 2 ≤ |C|) (h : IsCoprime D C) : ∃ m : ℕ, 1 ≤ m ∧ 2 * (m : ℤ) ≤ |C| ∧ Stops D C (sgn C * m) := by
  obtain ⟨u, v, huv⟩ := h
  have hC0 : |C| ≠ 0 := by omega
  set x := u % |C| with hx
  have x0 : 0 ≤ x := Int.emod_nonneg _ hC0
  have x1 : x < |C| := Int.emod_lt_of_pos _ (by omega)
  have hxu : C ∣ x * D - 1 := by
    have : |C| ∣ u - x := Int.dvd_self_sub_emod
    have h1 : C ∣ u - x := (abs_dvd C _).1 this
    obtain ⟨w, hw⟩ := h1
    refine ⟨-v - w * D, ?_⟩
    have : x = u - C * w := by omega
    rw [this]; linear_combination huv
  have hxne : x ≠ 0 := by
    intro h0
    rw [h0] at hxu
    have : C ∣ 1 := by simpa using hxu
    have := Int.isUnit_iff.1 (isUnit_of_dvd_one this)
    rcases this with rfl | rfl <;> norm_num at hC
  have cases : ∀ m : ℕ, (C ∣ (m : ℤ) * D - 1 ∨ C ∣ (m : ℤ) * D + 1) → Stops D C (sgn C * m) := by
    intro m hm
    unfold Stops
    rcases sgn_mul C with ⟨a, b⟩ | ⟨a, b⟩
    · rw [a]; simpa using hm
    · rw [a]
      have e1 : (-1 : ℤ) * m * D - 1 = -(m * D + 1) := by ring
      have e2 : (-1 : ℤ) * m * D + 1 = -(m * D - 1) := by ring
      rw [e1, e2, dvd_neg, dvd_neg]; tauto
  by_cases hh : 2 * x ≤ |C|
  · exact ⟨x.toNat, by omega, by omega, cases _ (Or.inl (by rw [Int.toNat_of_nonneg x0]; exact hxu))⟩
  · refine ⟨(|C| - x).toNat, by omega, by omega, cases _ (Or.inr ?_)⟩
    rw [Int.toNat_of_nonneg (by omega)]
    obtain ⟨w, hw⟩ := hxu
    obtain ⟨z, hz⟩ : C ∣ |C| := (dvd_abs C C).2 (dvd_refl C)
    refine ⟨z * D - w, ?_⟩
    rw [hz]; linear_combination -hw

theorem mod2_total (p C : ℤ) (hp : |p| ≤ 2147483647) (hC : C ≠ 0) (hC' : |C| ≤ 1073741824) : ∃ r, mod2 p C = some r := by
  rw [abs_le] at hp hC'
  obtain ⟨r, hr, _⟩ := C04_mod_small_divisor p C (by unfold inInt; omega) hC (by omega) (by omega)
  exact ⟨r, hr⟩

/-- The loop stops. -/
theorem loop_complete (D C : ℤ) (hC : 2 ≤ |C|) (hC1 : |C| ≤ 92681) (hD : 2 * |D| ≤ |C|) (m : ℕ) (hm : 2 * (m : ℤ) ≤ |C|)
    (hst : Stops D C (sgn C * m)) (fuel k : ℕ) (hk : k ≤ m) (hf : m < k + fuel) :
    ∃ E, subcycleLoop D C (sgn C) fuel (sgn C * k) = some E := by
  have hC0 : C ≠ 0 := by rintro rfl; simp at hC
  have hs : 0 < C ∧ sgn C = 1 ∨ C < 0 ∧ sgn C = -1 := by
    rcases sgn_mul C with ⟨a, b⟩ | ⟨a, b⟩
    · left; exact ⟨by omega, a⟩
    · right; exact ⟨b, a⟩
  induction fuel generalizing k with
  | zero => omega
  | succ fuel ih =>
    have habs : |sgn C * k * D| ≤ 2147483647 := by
      rw [abs_mul, abs_mul]
      have : |sgn C| = 1 := by rcases hs with ⟨_, s⟩ | ⟨_, s⟩ <;> rw [s] <;> rfl
      rw [this, one_mul, abs_of_nonneg (by positivity)]
      have h1 : (k : ℤ) ≤ 46340 := by omega
      have h2 : |D| ≤ 46340 := by omega
      have h3 : 0 ≤ |D| := abs_nonneg D
      have h4 : (k : ℤ) * |D| ≤ 46340 * 46340 := by
        apply mul_le_mul h1 h2 h3 (by norm_num)
      linarith
    obtain ⟨a, ha⟩ := mod2_total (sgn C * k * D) C habs hC0 (by omega)
    obtain ⟨b, hb⟩ := mod2_total (sgn C * k * D) (-C) habs (by omega) (by rw [abs_neg]; omega)
    have ck1 : ck (sgn C * k * D) = some (sgn C * k * D) := by
      rw [abs_le] at habs
      unfold ck; rw [if_pos (by unfold inInt; omega)]
    have ck2 : ck (-C) = some (-C) := by
      rw [abs_le] at hC1
      unfold ck; rw [if_pos (by unfold inInt; omega)]
    have ck3 : ck (sgn C * k + sgn C) = some (sgn C * (k + 1 : ℕ)) := by
      unfold ck
      have : |C| ≤ 92681 := hC1
      rw [if_pos (by unfold inInt; rcases hs with ⟨_, s⟩ | ⟨_, s⟩ <;> rw [s] <;> omega)]
      push_cast; rw [mul_add, mul_one]
    unfold subcycleLoop
    simp only [ck1, ck2, ck3, ha, hb, Option.bind_eq_bind, Option.bind_some]
    by_cases h1 : a = sgn C
    · rw [if_pos h1]; exact ⟨_, rfl⟩
    · rw [if_neg h1]
      by_cases h2 : b = -sgn C
      · rw [if_pos h2]; exact ⟨_, rfl⟩
      · rw [if_neg h2]
        by_cases hkm : k = m
        · exfalso
          subst hkm
          have e1 := mod_eq_iff _ C (sgn C) a ha hC hs
          have e2 := mod_eq_iff _ (-C) (-sgn C) b hb (by rwa [abs_neg]) (by omega)
          rw [e1] at h1
          rw [e2, neg_dvd] at h2
          unfold Stops at hst
          rcases hs with ⟨_, s⟩ | ⟨_, s⟩ <;> rw [s] at h1 h2 hst <;> simp [sub_eq_add_neg] at h1 h2 hst <;> tauto
        · exact ih (k + 1) (by omega) (by omega)

theorem sgn_cond (ν C : ℤ) (hC : C ≠ 0) : (ν = 0 ∨ sgn ν = sgn C) ↔ (ν ≠ 0 → (0 < ν ↔ 0 < C)) := by
  unfold sgn
  by_cases h : ν = 0
  · simp [h]
  · by_cases h1 : ν < 0 <;> by_cases h2 : C < 0 <;> simp [h, h1, h2] <;> omega

theorem make_some (ν D C : ℤ) (r : Recurrence) (h : make ν D C = some r) :
    Valid ν D C ∧ r.ν = ν ∧ r.D = D ∧ r.C = C ∧ (D = 0 ∧ r.subcycle = 0 ∨
      D ≠ 0 ∧ subcycleLoop D C (sgn C) C.natAbs (sgn C) = some r.subcycle) := by
  unfold make at h
  simp only [Option.bind_eq_bind, Option.ite_none_right_eq_some, Option.bind_eq_some_iff] at h
  obtain ⟨h1, h2, D2, h3, h4, h5, h6⟩ := h
  have hD2 : D2 = 2 * D := by
    unfold ck at h3; simp only [Option.ite_none_right_eq_some, Option.some.injEq] at h3; exact h3.2.symm
  subst hD2
  rw [abs_mul] at h4
  refine ⟨⟨h1, (sgn_cond ν C h1).1 h2, by simpa using h4, Int.isCoprime_iff_gcd_eq_one.2 h5⟩, ?_⟩
  by_cases hD : D = 0
  · rw [if_pos hD] at h6
    simp only [Option.some.injEq] at h6
    subst h6
    exact ⟨rfl, rfl, rfl, Or.inl ⟨hD, rfl⟩⟩
  · rw [if_neg hD] at h6
    obtain ⟨E, h7, h8⟩ := Option.bind_eq_some_iff.1 h6
    simp only [Option.some.injEq] at h8
    subst h8
    exact ⟨rfl, rfl, rfl, Or.inr ⟨hD, h7⟩⟩

theorem two_le (D C : ℤ) (hD : D ≠ 0) (h : 2 * |D| ≤ |C|) : 2 ≤ |C| := by
  have : 0 < |D| := abs_pos.2 hD
  omega

/-- C29: the constructor accepts exactly the triples that meet the documented conditions, and terminates.  (The bound on the cycle ensures
that integers do not overflow.) -/
theorem C29_constructor (ν D C : ℤ) (hC : |C| ≤ 92681) : (∃ r, make ν D C = some r) ↔ Valid ν D C := by
  constructor
  · rintro ⟨r, h⟩
    exact (make_some ν D C r h).1
  · rintro ⟨h1, h2, h3, h4⟩
    have ck1 : ck (2 * D) = some (2 * D) := by
      have hh : |2 * D| ≤ 92681 := by rw [abs_mul]; simpa using h3.trans hC
      rw [abs_le] at hh
      unfold ck; rw [if_pos (by unfold inInt; omega)]
    unfold make
    rw [if_pos h1, if_pos ((sgn_cond ν C h1).2 h2)]
    simp only [ck1, Option.bind_eq_bind, Option.bind_some]
    rw [if_pos (by rw [abs_mul]; simpa using h3), if_pos (Int.isCoprime_iff_gcd_eq_one.1 h4)]
    by_cases hD : D = 0
    · rw [if_pos hD]; exact ⟨_, rfl⟩
    · rw [if_neg hD]
      have hC2 := two_le D C hD h3
      obtain ⟨m, m1, m2, m3⟩ := exists_stop D C hC2 h4
      have hn : (C.natAbs : ℤ) = |C| := Int.natCast_natAbs C
      obtain ⟨E, hE⟩ := loop_complete D C hC2 hC h3 m m2 m3 C.natAbs 1 m1 (by omega)
      rw [Nat.cast_one, mul_one] at hE
      rw [hE]
      exact ⟨_, rfl⟩

theorem revolutions_ne (ν D C : ℤ) (h : Valid ν D C) (hD : D ≠ 0) : ν * C + D ≠ 0 := by
  obtain ⟨h1, h2, h3, h4⟩ := h
  intro h0
  by_cases hν : ν = 0
  · subst hν; simp at h0; exact hD h0
  · have : |D| = |ν| * |C| := by rw [← abs_mul, ← abs_neg D]; congr 1; omega
    have hν1 : 1 ≤ |ν| := Int.one_le_abs hν
    have hC1 : 1 ≤ |C| := Int.one_le_abs h1
    nlinarith

theorem passesNear_iff (r : Recurrence) (hN : r.revolutions ≠ 0) (E : ℤ) :
    PassesNear r E ↔ Stops r.D r.C E := by
  have hNq : (r.revolutions : ℚ) ≠ 0 := by exact_mod_cast hN
  have key : ∀ n : ℤ, |(n : ℚ) * r.equatorialShift - -E| = |r.gridInterval| ↔ |E * r.revolutions - n * r.C| = 1 := by
    intro n
    unfold Recurrence.equatorialShift Recurrence.gridInterval
    have e : (n : ℚ) * -((r.C : ℚ) / r.revolutions) - -E = ((E * r.revolutions - n * r.C : ℤ) : ℚ) / r.revolutions := by
      push_cast; field_simp; ring
    rw [e, abs_div, abs_div, div_left_inj' (abs_ne_zero.2 hNq), abs_one, ← Int.cast_abs]
    exact_mod_cast Iff.rfl
  unfold PassesNear Stops
  simp only [key]
  unfold Recurrence.revolutions
  constructor
  · rintro ⟨n, hn⟩
    rcases (abs_eq (by norm_num : (0 : ℤ) ≤ 1)).1 hn with h | h
    · left; exact ⟨n - E * r.ν, by linear_combination h⟩
    · right; exact ⟨n - E * r.ν, by linear_combination h⟩
  · rintro (⟨w, hw⟩ | ⟨w, hw⟩)
    · exact ⟨w + E * r.ν, by rw [show E * (r.ν * r.C + r.D) - (w + E * r.ν) * r.C = 1 by linear_combination hw]; rfl⟩
    · exact ⟨w + E * r.ν, by rw [show E * (r.ν * r.C + r.D) - (w + E * r.ν) * r.C = -1 by linear_combination hw]; rfl⟩

/-- C29: the subcycle is the smallest number of days (counted in the direction of the rotation of the primary) after which the ground
track passes one grid interval away from the origin; it is at most half of the cycle.  It is 0 if the orbit recurs every day. -/
theorem C29_subcycle (ν D C : ℤ) (r : Recurrence) (h : make ν D C = some r) :
    r.ν = ν ∧ r.D = D ∧ r.C = C ∧ (D = 0 → r.subcycle = 0) ∧
    (D ≠ 0 → r.subcycle ≠ 0 ∧ (0 < r.subcycle ↔ 0 < C) ∧ 2 * |r.subcycle| ≤ |C| ∧ PassesNear r r.subcycle ∧
      ∀ E, E ≠ 0 → |E| < |r.subcycle| → ¬ PassesNear r E) := by
  obtain ⟨hv, e1, e2, e3, hs⟩ := make_some ν D C r h
  refine ⟨e1, e2, e3, fun hD => ?_, fun hD => ?_⟩
  · rcases hs with ⟨_, h⟩ | ⟨h, _⟩
    · exact h
    · exact absurd hD h
  · rcases hs with ⟨h, _⟩ | ⟨_, hl⟩
    · exact absurd h hD
    have hC2 := two_le D C hD hv.2.2.1
    have hN : r.revolutions ≠ 0 := by
      unfold Recurrence.revolutions; rw [e1, e2, e3]; exact revolutions_ne ν D C hv hD
    obtain ⟨m', m1', m2', m3'⟩ := exists_stop D C hC2 hv.2.2.2
    obtain ⟨m, m1, m2, m3, m4⟩ := loop_sound D C hC2 C.natAbs 1 r.subcycle (by rwa [Nat.cast_one, mul_one])
    have hmm : m ≤ m' := by
      by_contra hlt
      exact m4 m' m1' (by omega) m3'
    have habs : |r.subcycle| = m := by
      rw [m2]; rcases sgn_mul C with ⟨a, _⟩ | ⟨a, _⟩ <;> rw [a] <;> simp
    have neg : ∀ E, Stops D C E → Stops D C (-E) := by
      intro E hE
      unfold Stops at *
      have a1 : -E * D - 1 = -(E * D + 1) := by ring
      have a2 : -E * D + 1 = -(E * D - 1) := by ring
      rw [a1, a2, dvd_neg, dvd_neg]; tauto
    refine ⟨?_, ?_, by rw [habs]; omega, ?_, ?_⟩
    · intro h0; rw [h0] at habs; simp at habs; omega
    · rw [m2]; rcases sgn_mul C with ⟨a, b⟩ | ⟨a, b⟩ <;> rw [a] <;> constructor <;> intro hh
      · have : C ≠ 0 := by rintro rfl; simp at hC2
        omega
      · omega
      · omega
      · omega
    · rw [passesNear_iff r hN, e2, e3]; exact m3
    · intro E hE hlt
      rw [passesNear_iff r hN, e2, e3]
      intro hst
      rw [habs] at hlt
      have hpos : 0 < |E| := abs_pos.2 hE
      refine m4 |E|.toNat (by omega) (by omega) ?_
      rw [Int.toNat_of_nonneg (abs_nonneg E)]
      rcases sgn_mul C with ⟨a, _⟩ | ⟨a, _⟩ <;> rw [a] <;> rcases abs_choice E with c | c <;> rw [c]
      · simpa using hst
      · simpa using neg E hst
      · simpa using neg E hst
      · simpa using hst

/-- C29: Nᴛₒ / Cᴛₒ = νₒ + Dᴛₒ / Cᴛₒ is a reduced fraction, νₒ is the number of orbits per day rounded to an integer, and the number
of revolutions is positive as soon as there is at least one per day; the equatorial shift is then westward unless the rotation of the primary
is retrograde. -/
theorem C29_fraction (ν D C : ℤ) (r : Recurrence) (h : make ν D C = some r) :
    (r.revolutions : ℚ) / C = ν + (D : ℚ) / C ∧ IsCoprime r.revolutions C ∧ |(r.revolutions : ℚ) / C - ν| ≤ 1 / 2 ∧
    (ν ≠ 0 ∨ 0 < D → 0 < r.revolutions ∧ 0 < r.gridInterval ∧ (r.equatorialShift < 0 ↔ 0 < C) ∧
      r.baseInterval = |(C : ℚ)| * r.gridInterval) := by
  obtain ⟨⟨h1, h2, h3, h4⟩, e1, e2, e3, -⟩ := make_some ν D C r h
  have hCq : (C : ℚ) ≠ 0 := by exact_mod_cast h1
  have hr : r.revolutions = ν * C + D := by unfold Recurrence.revolutions; rw [e1, e2, e3]
  have f : (r.revolutions : ℚ) / C = ν + (D : ℚ) / C := by rw [hr]; push_cast; field_simp
  refine ⟨f, ?_, ?_, ?_⟩
  · rw [hr, add_comm]
    exact IsCoprime.add_mul_right_left h4 ν
  · rw [f, add_sub_cancel_left, abs_div]
    have h3q : 2 * |(D : ℚ)| ≤ |(C : ℚ)| := by exact_mod_cast h3
    rw [div_le_iff₀ (abs_pos.2 hCq)]; linarith
  · intro hν
    have hpos : 0 < r.revolutions := by
      rw [hr]
      rcases eq_or_ne ν 0 with h0 | h0
      · subst h0
        simp at hν ⊢
        exact hν
      · have hp : 0 < ν * C := by
          have := h2 h0
          rcases lt_trichotomy 0 ν with h | h | h
          · exact mul_pos h (this.1 h)
          · omega
          · exact mul_pos_of_neg_of_neg h (by have : ¬ 0 < C := fun hc => by have := this.2 hc; omega
                                              omega)
        have hge : |C| ≤ ν * C := by
          have : |ν * C| = ν * C := abs_of_pos hp
          rw [← this, abs_mul]
          have : 1 ≤ |ν| := Int.one_le_abs h0
          nlinarith [abs_nonneg C]
        have := abs_le.1 (le_refl |D|)
        have hC1 : 1 ≤ |C| := Int.one_le_abs h1
        omega
    have hposq : (0 : ℚ) < r.revolutions := by exact_mod_cast hpos
    refine ⟨hpos, by unfold Recurrence.gridInterval; positivity, ?_, ?_⟩
    · unfold Recurrence.equatorialShift
      rw [e3, neg_lt_zero, div_pos_iff_of_pos_right hposq]
      exact_mod_cast Iff.rfl
    · unfold Recurrence.baseInterval Recurrence.equatorialShift Recurrence.gridInterval
      rw [abs_neg, abs_div, e3, abs_of_pos hposq]; ring

/-- C29: the comments say that the number of revolutions and the grid interval are always positive, but the constructor accepts a triple for
which they are negative (`ClosestRecurrence` never yields such a triple, see `C30_closest_partial`). -/
theorem C29_negative_revolutions_counterexample :
    ∃ r, make 0 (-1) 3 = some r ∧ r.revolutions = -1 ∧ r.gridInterval < 0 := by
  refine ⟨⟨0, -1, 3, 1⟩, by decide, by decide, ?_⟩
  unfold Recurrence.gridInterval
  rw [show Recurrence.revolutions ⟨0, -1, 3, 1⟩ = -1 by decide]
  norm_num

-- TOPEX/Poséidon [13; -3; 10] and Terra [15; -7; 16].
example : make 13 (-3) 10 = some ⟨13, -3, 10, 3⟩ := by decide
example : make 15 (-7) 16 = some ⟨15, -7, 16, 7⟩ := by decide

/-! ## Rounding to an integer -/

theorem nearbyint_close (x : ℚ) : |x - nearbyint x| ≤ 1 / 2 := by
  have h1 := Int.floor_le x
  have h2 := Int.lt_floor_add_one x
  unfold nearbyint
  rw [abs_le]
  split
  · constructor <;> linarith
  · split
    · push_cast; constructor <;> linarith
    · split <;> push_cast <;> constructor <;> linarith

theorem nearbyint_nearest (x : ℚ) (m : ℤ) : |x - nearbyint x| ≤ |x - m| := by
  by_cases h : m = nearbyint x
  · rw [h]
  · have h1 : (1 : ℚ) ≤ |((nearbyint x - m : ℤ) : ℚ)| := by
      rw [← Int.cast_abs]
      exact_mod_cast Int.one_le_abs (sub_ne_zero.2 (fun h' => h h'.symm))
    have h2 := nearbyint_close x
    have h3 : |((nearbyint x - m : ℤ) : ℚ)| ≤ |x - nearbyint x| + |x - m| := by
      have : ((nearbyint x - m : ℤ) : ℚ) = -(x - nearbyint x) + (x - m) := by push_cast; ring
      rw [this]
      refine (abs_add_le _ _).trans ?_
      rw [abs_neg]
    linarith

/-- The distance to the nearest integer. -/
def distZ (x : ℚ) : ℚ := |x - nearbyint x|

theorem distZ_nonneg (x : ℚ) : 0 ≤ distZ x := abs_nonneg _

theorem distZ_le (x : ℚ) (m : ℤ) : distZ x ≤ |x - m| := nearbyint_nearest x m

theorem distZ_add (x : ℚ) (m : ℤ) : distZ (x + m) = distZ x := by
  apply le_antisymm
  · refine (distZ_le (x + m) (nearbyint x + m)).trans (le_of_eq ?_)
    unfold distZ; congr 1; push_cast; ring
  · refine (distZ_le x (nearbyint (x + m) - m)).trans (le_of_eq ?_)
    unfold distZ; congr 1; push_cast; ring

theorem distZ_neg (x : ℚ) : distZ (-x) = distZ x := by
  have key : ∀ y, distZ (-y) ≤ distZ y := by
    intro y
    refine (distZ_le (-y) (-nearbyint y)).trans (le_of_eq ?_)
    unfold distZ; rw [← abs_neg]; congr 1; push_cast; ring
  apply le_antisymm (key x)
  have := key (-x)
  rwa [neg_neg] at this

theorem distZ_abs (x : ℚ) : distZ |x| = distZ x := by
  rcases abs_choice x with h | h <;> rw [h]
  exact distZ_neg x

theorem nearbyint_nonneg (x : ℚ) (h : 0 ≤ x) : 0 ≤ nearbyint x := by
  have := Int.floor_nonneg.2 h
  unfold nearbyint
  split
  · exact this
  · split
    · omega
    · split <;> omega

/-- If the magnitude is less than half an odd integer, then so is that of the rounding; half of one is rounded down. -/
theorem nearbyint_half (x : ℚ) (c : ℤ) (h : 2 * |x| < c) : 2 * |nearbyint x| ≤ c := by
  have h1 := nearbyint_close x
  by_contra hlt
  push Not at hlt
  have hq : ((c : ℚ)) + 1 ≤ 2 * |(nearbyint x : ℚ)| := by exact_mod_cast hlt
  have tri : |(nearbyint x : ℚ)| ≤ |x| + |x - nearbyint x| := by
    have e : (nearbyint x : ℚ) = x - (x - nearbyint x) := by ring
    calc |(nearbyint x : ℚ)| = |x - (x - nearbyint x)| := by rw [← e]
      _ ≤ |x| + |x - nearbyint x| := abs_sub _ _
  linarith

/-! ## The search -/

/-- The floating-point operations performed are exact. -/
def Exact (fl : ℚ → ℚ) (κ : ℚ) (max : ℤ) : Prop :=
  ∀ p q : ℤ, |p| ≤ max → |p * κ + q| ≤ max * (|κ| + 1) → fl (p * κ + q) = p * κ + q

theorem safe_ok (x : ℚ) (h1 : -2147483648 ≤ x) (h2 : x ≤ 2147483647) : safeNearbyInt x = .ok (nearbyint x) := by
  unfold safeNearbyInt; rw [if_neg (by rw [not_or]; constructor <;> linarith)]

/-- The first iteration with the smallest error. -/
structure Best (κ : ℚ) (J c : ℤ) : Prop where
  pos : 1 ≤ c
  lt : c < J
  min : ∀ i : ℤ, 1 ≤ i → i < J → distZ (κ * c) ≤ distZ (κ * i)
  first : ∀ i : ℤ, 1 ≤ i → i < c → distZ (κ * c) < distZ (κ * i)

/-- The state of the loop. -/
def Inv (κ : ℚ) (J : ℤ) (best : Option ℚ) (C : Option ℤ) : Prop :=
  J = 1 ∧ best = none ∧ C = none ∨
  ∃ c, Best κ J c ∧ best = some (distZ (κ * c)) ∧ C = some (if κ < 0 then -c else c)

theorem exact_mul {fl : ℚ → ℚ} {κ : ℚ} {max : ℤ} (h : Exact fl κ max) (J : ℤ) (h1 : 1 ≤ J) (h2 : J ≤ max) : fl (κ * J) = κ * J := by
  have := h J 0 (by rw [abs_of_pos (by omega)]; exact h2) ?_
  · simpa [mul_comm] using this
  · rw [Int.cast_zero, add_zero, abs_mul]
    have hJ : |(J : ℚ)| ≤ max := by rw [← Int.cast_abs, abs_of_pos (by omega : 0 < J)]; exact_mod_cast h2
    have := abs_nonneg κ
    have := abs_nonneg (J : ℚ)
    nlinarith

theorem exact_frac {fl : ℚ → ℚ} {κ : ℚ} {max : ℤ} (h : Exact fl κ max) (J : ℤ) (h1 : 1 ≤ J) (h2 : J ≤ max) :
    |fl (|κ * J| - nearbyint |κ * J|)| = distZ (κ * J) := by
  rw [← distZ_abs (κ * J)]
  have hm1 : (1 : ℚ) ≤ max := by exact_mod_cast h1.trans h2
  have hc := nearbyint_close |κ * J|
  have hb : |(|κ * J| - nearbyint |κ * J|)| ≤ max * (|κ| + 1) := by nlinarith [abs_nonneg κ]
  have key : ∃ p q : ℤ, |p| ≤ max ∧ |κ * J| - nearbyint |κ * J| = p * κ + q := by
    rcases abs_choice (κ * J) with hh | hh
    · exact ⟨J, -nearbyint |κ * J|, by rw [abs_of_pos (by omega)]; exact h2, by rw [hh]; push_cast; ring⟩
    · exact ⟨-J, -nearbyint |κ * J|, by rw [abs_neg, abs_of_pos (by omega)]; exact h2, by rw [hh]; push_cast; ring⟩
  obtain ⟨p, q, hp, e⟩ := key
  unfold distZ
  rw [e] at hb ⊢
  rw [h p q hp hb]

theorem best_extend {κ : ℚ} {J c : ℤ} (h : Best κ J c) (hn : ¬ distZ (κ * J) < distZ (κ * c)) : Best κ (J + 1) c := by
  refine ⟨h.pos, by have := h.lt; omega, fun i h1 h2 => ?_, h.first⟩
  by_cases hi : i = J
  · subst hi; exact not_lt.1 hn
  · exact h.min i h1 (by omega)

theorem best_new {κ : ℚ} {J : ℤ} (hJ : 1 ≤ J) (h : ∀ i : ℤ, 1 ≤ i → i < J → distZ (κ * J) < distZ (κ * i)) : Best κ (J + 1) J := by
  refine ⟨hJ, by omega, fun i h1 h2 => ?_, h⟩
  by_cases hi : i = J
  · subst hi; exact le_rfl
  · exact (h i h1 (by omega)).le

theorem search_ok {fl : ℚ → ℚ} {κ : ℚ} {max : ℤ} (hE : Exact fl κ max) (n : ℕ) (J : ℤ) (best : Option ℚ) (C : Option ℤ)
    (hJ : 1 ≤ J) (hmax : J + n = max + 1) (hI : Inv κ J best C) (hr : |κ| * max ≤ 2147483647) :
    ∃ C', search fl κ n J best C = .ok C' ∧ ∃ best', Inv κ (max + 1) best' C' := by
  induction n generalizing J best C with
  | zero =>
    refine ⟨C, rfl, best, ?_⟩
    have : J = max + 1 := by simpa using hmax
    rw [← this]; exact hI
  | succ n ih =>
    have hJm : J ≤ max := by push_cast at hmax; omega
    have hsmall : |κ * J| ≤ 2147483647 := by
      rw [abs_mul]
      have hJq : |(J : ℚ)| ≤ max := by rw [← Int.cast_abs, abs_of_pos (by omega : 0 < J)]; exact_mod_cast hJm
      have := mul_le_mul_of_nonneg_left hJq (abs_nonneg κ)
      linarith
    unfold search
    simp only [exact_mul hE J hJ hJm]
    rw [safe_ok _ (by linarith [abs_nonneg (κ * J)]) hsmall]
    simp only [Outcome.bind]
    rw [exact_frac hE J hJ hJm]
    have next : ∀ b c, Inv κ (J + 1) b c → ∃ C', search fl κ n (J + 1) b c = .ok C' ∧ ∃ best', Inv κ (max + 1) best' C' :=
      fun b c hi => ih (J + 1) b c (by omega) (by push_cast at hmax ⊢; omega) hi
    rcases hI with ⟨rfl, rfl, rfl⟩ | ⟨c, hc, rfl, rfl⟩
    · simp only [if_true]
      exact next _ _ (Or.inr ⟨1, best_new le_rfl (fun i h1 h2 => by omega), rfl, rfl⟩)
    · simp only [decide_eq_true_eq]
      split
      · rename_i hlt
        exact next _ _ (Or.inr ⟨J, best_new hJ (fun i h1 h2 => lt_of_lt_of_le hlt (hc.min i h1 h2)), rfl, rfl⟩)
      · rename_i hlt
        exact next _ _ (Or.inr ⟨c, best_extend hc hlt, rfl, rfl⟩)

theorem search_error {fl : ℚ → ℚ} {κ : ℚ} {max : ℤ} (hE : Exact fl κ max) (n : ℕ) (J : ℤ) (best : Option ℚ) (C : Option ℤ)
    (hJ : 1 ≤ J) (hmax : J + n = max + 1) (hr : 2147483647 < |κ| * max) (hn : J ≤ max) :
    search fl κ n J best C = .error := by
  induction n generalizing J best C with
  | zero => simp at hmax; omega
  | succ n ih =>
    unfold search
    simp only [exact_mul hE J hJ hn]
    by_cases hs : |κ * J| ≤ 2147483647
    · rw [safe_ok _ (by linarith [abs_nonneg (κ * J)]) hs]
      simp only [Outcome.bind]
      have hne : J ≠ max := by
        rintro rfl
        rw [abs_mul, ← Int.cast_abs (a := J), abs_of_pos (by omega : 0 < J)] at hs
        linarith
      have hm' : J + 1 + (n : ℤ) = max + 1 := by push_cast at hmax; omega
      split <;> split <;> exact ih _ _ _ (by omega) hm' (by omega)
    · unfold safeNearbyInt
      rw [if_pos (Or.inr (not_le.1 hs))]
      rfl

/-! ## The closest recurrence -/

/-- C30: the recurrence found meets the conditions of the constructor, so that it does not crash; its cycle is at most the given number of days;
νₒ is the nearest integer to κ; Nᴛₒ / Cᴛₒ is the best rational approximation of κ in the sense that |κ Cᴛₒ - Nᴛₒ| is the smallest possible for the given
bound, and strictly smaller than that for shorter cycles, i.e., it is a convergent of κ.  An error is returned if κ is not finite or is too large.

What is missing: the floating-point operations must be exact, see `C30_double` for a sufficient condition and `C30_crash_counterexample` for
a κ for which the program crashes. -/
theorem C30_closest_partial (fl : ℚ → ℚ) (κ : ℚ) (max : ℤ) (h1 : 1 ≤ max) (h2 : max ≤ 92681) (hE : Exact fl κ max) :
    closestRecurrence fl none max = .error ∧
    (2147483647 < |κ| * max → closestRecurrence fl (some κ) max = .error) ∧
    (|κ| * max ≤ 2147483647 → ∃ r, closestRecurrence fl (some κ) max = .ok r ∧
      Valid r.ν r.D r.C ∧ |r.C| ≤ max ∧ (0 < r.C ↔ 0 ≤ κ) ∧ 0 ≤ r.revolutions ∧
      (∀ m : ℤ, |κ - r.ν| ≤ |κ - m|) ∧
      (∀ C N : ℤ, 1 ≤ |C| → |C| ≤ max → |κ * r.C - r.revolutions| ≤ |κ * C - N|) ∧
      (∀ C N : ℤ, 1 ≤ |C| → |C| < |r.C| → |κ * r.C - r.revolutions| < |κ * C - N|)) := by
  have hmaxq : (1 : ℚ) ≤ max := by exact_mod_cast h1
  refine ⟨rfl, fun h => ?_, fun h => ?_⟩
  · unfold closestRecurrence
    simp only
    rw [search_error hE _ 1 _ _ le_rfl (by omega) h h1]
    rfl
  · obtain ⟨C', hs, best', hI⟩ := search_ok hE max.toNat 1 none none le_rfl (by omega) (Or.inl ⟨rfl, rfl, rfl⟩) h
    rcases hI with ⟨h0, _⟩ | ⟨c, hc, rfl, rfl⟩
    · omega
    set C : ℤ := if κ < 0 then -c else c with hCdef
    have hCabs : |C| = c := by
      rw [hCdef]; have := hc.pos
      split
      · rw [abs_neg, abs_of_pos (by omega)]
      · rw [abs_of_pos (by omega)]
    have hC0 : C ≠ 0 := by intro h0; rw [h0] at hCabs; have := hc.pos; simp at hCabs; omega
    have hκ : |κ| ≤ 2147483647 := by nlinarith [abs_nonneg κ]
    have hκ' := abs_le.1 hκ
    have eν : safeNearbyInt κ = .ok (nearbyint κ) := safe_ok κ (by linarith) hκ'.2
    have hclose := nearbyint_close κ
    set ν := nearbyint κ with hν
    -- The subtraction and the product.
    have f1 : fl (κ - ν) = κ - ν := by
      have := hE 1 (-ν) (by simpa using h1) (by
        have : |((1 : ℤ) : ℚ) * κ + ((-ν : ℤ) : ℚ)| = |κ - ν| := by congr 1; push_cast; ring
        rw [this]; nlinarith [abs_nonneg κ])
      push_cast at this
      rw [one_mul, ← sub_eq_add_neg] at this
      exact this
    have hCq : |(C : ℚ)| = c := by rw [← Int.cast_abs, hCabs]
    have hcmax : (c : ℚ) ≤ max := by exact_mod_cast (by have := hc.lt; omega : c ≤ max)
    have hcpos : (1 : ℚ) ≤ c := by exact_mod_cast hc.pos
    have hxb : |(κ - ν) * C| ≤ c / 2 := by
      rw [abs_mul, hCq]
      nlinarith
    have f2 : fl ((κ - ν) * C) = (κ - ν) * C := by
      have e : (κ - ν) * C = (C : ℤ) * κ + ((-(ν * C) : ℤ) : ℚ) := by push_cast; ring
      rw [e]
      refine hE C _ (by rw [hCabs]; have := hc.lt; omega) ?_
      rw [← e]
      nlinarith [abs_nonneg κ]
    set x := (κ - ν) * C with hx
    have hxb' := abs_le.1 hxb
    have hcb : (c : ℚ) ≤ 92681 := by exact_mod_cast (by have := hc.lt; omega : c ≤ 92681)
    have eD : safeNearbyInt x = .ok (nearbyint x) := safe_ok x (by linarith) (by linarith)
    set D := nearbyint x with hD
    -- The error.
    have herr : |κ * C - ((ν * C + D : ℤ) : ℚ)| = distZ (κ * c) := by
      have e : κ * C - ((ν * C + D : ℤ) : ℚ) = x - D := by rw [hx]; push_cast; ring
      rw [e]
      have : distZ x = distZ (κ * C) := by
        have e2 : κ * C = x + ((ν * C : ℤ) : ℚ) := by rw [hx]; push_cast; ring
        rw [e2, distZ_add]
      show distZ x = _
      rw [this, ← distZ_abs, abs_mul, hCq, ← distZ_abs (κ * c), abs_mul, abs_of_pos (by linarith : (0 : ℚ) < c)]
    -- Minimality.
    have hmin : ∀ C1 N1 : ℤ, 1 ≤ |C1| → |C1| ≤ max → distZ (κ * c) ≤ |κ * C1 - N1| := by
      intro C1 N1 k1 k2
      refine (hc.min |C1| k1 (by omega)).trans ?_
      have : distZ (κ * (|C1| : ℤ)) = distZ (κ * C1) := by
        rw [← distZ_abs, abs_mul, Int.cast_abs, abs_abs, ← abs_mul, distZ_abs]
      rw [this]
      exact distZ_le _ _
    have hfirst : ∀ C1 N1 : ℤ, 1 ≤ |C1| → |C1| < c → distZ (κ * c) < |κ * C1 - N1| := by
      intro C1 N1 k1 k2
      refine lt_of_lt_of_le (hc.first |C1| k1 k2) ?_
      have : distZ (κ * (|C1| : ℤ)) = distZ (κ * C1) := by
        rw [← distZ_abs, abs_mul, Int.cast_abs, abs_abs, ← abs_mul, distZ_abs]
      rw [this]
      exact distZ_le _ _
    -- The sign of C.
    have hsign : 0 < C ↔ 0 ≤ κ := by
      rw [hCdef]; have := hc.pos
      split
      · rename_i hneg; constructor
        · intro; omega
        · intro hh; linarith
      · rename_i hneg; constructor
        · intro; exact not_lt.1 hneg
        · intro; omega
    -- Validity.
    have hD2 : 2 * |D| ≤ |C| := by
      rw [hCabs]
      rcases lt_or_eq_of_le hclose with hl | he
      · apply nearbyint_half
        rw [abs_mul, hCq]
        have hl' : |κ - ν| < 1 / 2 := hl
        nlinarith
      · have he' : |κ - ν| = 1 / 2 := he
        -- κ is a half-integer: the cycle is of one or two days.
        by_cases hm2 : c ≤ 1
        · have hc1 : c = 1 := by have := hc.pos; omega
          have hx2 : |x| = 1 / 2 := by rw [hx, abs_mul, hCq, hc1, he']; norm_num
          have : D = 0 := by
            rw [hD]
            rcases (abs_eq (by norm_num)).1 hx2 with hh | hh <;> rw [hh] <;> decide +kernel
          rw [this]; simp; omega
        · have h2m : (2 : ℤ) ≤ max := by have := hc.lt; omega
          have hz : ∃ N : ℤ, |κ * (2 : ℤ) - N| = 0 := by
            rcases (abs_eq (by norm_num)).1 he' with hh | hh
            · exact ⟨2 * ν + 1, by rw [abs_eq_zero]; push_cast; linarith⟩
            · exact ⟨2 * ν - 1, by rw [abs_eq_zero]; push_cast; linarith⟩
          obtain ⟨N, hN⟩ := hz
          have hc2 : c = 2 := by
            by_contra hne
            have := hfirst 2 N (by norm_num) (by show (2 : ℤ) < c; omega)
            rw [hN] at this
            exact absurd this (not_lt.2 (distZ_nonneg _))
          have hx1 : |x| = 1 := by rw [hx, abs_mul, hCq, hc2, he']; norm_num
          have : |D| = 1 := by
            rw [hD]
            rcases (abs_eq (by norm_num)).1 hx1 with hh | hh <;> rw [hh] <;> decide +kernel
          omega
    have hgcd : IsCoprime D C := by
      rw [Int.isCoprime_iff_gcd_eq_one]
      by_contra hg
      have hg0 : Int.gcd D C ≠ 0 := by rw [Ne, Int.gcd_eq_zero_iff]; tauto
      set g : ℤ := (Int.gcd D C : ℤ) with hgdef
      have hg2 : 2 ≤ g := by omega
      obtain ⟨D', hD'⟩ : g ∣ D := Int.gcd_dvd_left _ _
      obtain ⟨C1, hC1⟩ : g ∣ C := Int.gcd_dvd_right _ _
      have hC1abs : c = g * |C1| := by rw [← hCabs, hC1, abs_mul, abs_of_pos (by omega : 0 < g)]
      have hC1pos : 1 ≤ |C1| := by
        have h0 : C1 ≠ 0 := by rintro rfl; rw [mul_zero] at hC1; exact hC0 hC1
        exact Int.one_le_abs h0
      have hlt := hfirst C1 (ν * C1 + D') hC1pos (by nlinarith)
      have e : κ * C - ((ν * C + D : ℤ) : ℚ) = g * (κ * C1 - ((ν * C1 + D' : ℤ) : ℚ)) := by
        rw [hD', hC1]; push_cast; ring
      rw [← herr, e, abs_mul] at hlt
      have hgq : (2 : ℚ) ≤ |(g : ℚ)| := by rw [abs_of_pos (by exact_mod_cast (by omega : 0 < g))]; exact_mod_cast hg2
      nlinarith [abs_nonneg (κ * (C1 : ℚ) - ((ν * C1 + D' : ℤ) : ℚ))]
    have hνs : ν ≠ 0 → (0 < ν ↔ 0 < C) := by
      intro h0
      rw [hsign]
      constructor
      · intro hp
        have : (1 : ℚ) ≤ ν := by exact_mod_cast hp
        have := (abs_le.1 hclose).1
        linarith
      · intro hk
        have := nearbyint_nonneg κ hk
        omega
    have hvalid : Valid ν D C := ⟨hC0, hνs, hD2, hgcd⟩
    obtain ⟨r, hr⟩ := (C29_constructor ν D C (by rw [hCabs]; have := hc.lt; omega)).2 hvalid
    obtain ⟨_, e1, e2, e3, _⟩ := make_some ν D C r hr
    have hrev : r.revolutions = ν * C + D := by unfold Recurrence.revolutions; rw [e1, e2, e3]
    refine ⟨r, ?_, ?_, ?_, ?_, ?_, ?_, ?_, ?_⟩
    · unfold closestRecurrence
      simp only [hs, Outcome.bind, eν, f1]
      rw [← hx, f2]
      simp only [eD, hr]
    · rw [e1, e2, e3]; exact hvalid
    · rw [e3, hCabs]; have := hc.lt; omega
    · rw [e3]; exact hsign
    · by_cases h0 : ν = 0
      · rw [hrev, h0, zero_mul, zero_add]
        apply nearbyint_nonneg
        rw [hx, h0, Int.cast_zero, sub_zero]
        by_cases hk : κ < 0
        · have : (C : ℚ) < 0 := by
            rw [hCdef, if_pos hk]; push_cast; linarith
          exact (mul_pos_of_neg_of_neg hk this).le
        · have : (0 : ℚ) < C := by exact_mod_cast hsign.2 (not_lt.1 hk)
          exact mul_nonneg (not_lt.1 hk) this.le
      · exact ((C29_fraction ν D C r hr).2.2.2 (Or.inl h0)).1.le
    · rw [e1]; exact nearbyint_nearest κ
    · intro C1 N1 k1 k2
      rw [e3, hrev, herr]; exact hmin C1 N1 k1 k2
    · intro C1 N1 k1 k2
      rw [e3, hCabs] at k2
      rw [e3, hrev, herr]; exact hfirst C1 N1 k1 k2

theorem exact_id (κ : ℚ) (max : ℤ) : Exact id κ max := fun _ _ _ _ => rfl

theorem exponent_le (x : ℚ) (hx : 0 < x) : (2 : ℚ) ^ exponent x ≤ x := by
  unfold exponent
  simp only
  split
  · assumption
  · have hn : x.num.natAbs ≠ 0 := by
      have := Rat.num_pos.2 hx; omega
    have h1 : (2 : ℚ) ^ (Nat.log2 x.num.natAbs) ≤ x.num.natAbs := by exact_mod_cast Nat.log2_self_le hn
    have h2 : (x.den : ℚ) ≤ 2 ^ (Nat.log2 x.den + 1) := by exact_mod_cast (Nat.lt_log2_self (n := x.den)).le
    have hd : (0 : ℚ) < x.den := by exact_mod_cast x.den_pos
    have e : (2 : ℚ) ^ ((Nat.log2 x.num.natAbs : ℤ) - Nat.log2 x.den - 1) =
        2 ^ (Nat.log2 x.num.natAbs) / 2 ^ (Nat.log2 x.den + 1) := by
      rw [sub_sub, zpow_sub₀ (by norm_num)]
      congr 1
    rw [e]
    have hxe : x = x.num.natAbs / x.den := by
      have : ((x.num.natAbs : ℤ) : ℚ) = x.num := by
        rw [Int.natAbs_of_nonneg (Rat.num_pos.2 hx).le]
      conv_lhs => rw [← Rat.num_div_den x]
      rw [← this]; rfl
    conv_rhs => rw [hxe]
    exact div_le_div₀ (by positivity) h1 hd h2

theorem nearbyint_int (n : ℤ) : nearbyint (n : ℚ) = n := by
  unfold nearbyint; simp

/-- Numbers with few significant bits are not rounded. -/
theorem binary64_exact (n : ℤ) (k : ℕ) (h : |n| < 2 ^ 53) : binary64 ((n : ℚ) / 2 ^ k) = (n : ℚ) / 2 ^ k := by
  unfold binary64
  by_cases h0 : (n : ℚ) / 2 ^ k = 0
  · rw [if_pos h0, h0]
  · rw [if_neg h0]
    simp only
    have hpos : 0 < |(n : ℚ) / 2 ^ k| := abs_pos.2 h0
    have hle := exponent_le _ hpos
    set e := exponent |(n : ℚ) / 2 ^ k| with he
    have hlt : |(n : ℚ) / 2 ^ k| < 2 ^ (53 - (k : ℤ)) := by
      rw [abs_div, abs_of_pos (by positivity : (0 : ℚ) < 2 ^ k), zpow_sub₀ (by norm_num), zpow_natCast]
      apply div_lt_div_of_pos_right _ (by positivity)
      rw [← Int.cast_abs]
      have : ((|n| : ℤ) : ℚ) < ((2 ^ 53 : ℤ) : ℚ) := by exact_mod_cast h
      norm_num at this ⊢
      exact this
    have hek : e < 53 - (k : ℤ) := (zpow_lt_zpow_iff_right₀ (by norm_num : (1 : ℚ) < 2)).1 (lt_of_le_of_lt hle hlt)
    obtain ⟨j, hj⟩ : ∃ j : ℕ, (j : ℤ) = 52 - k - e := ⟨(52 - k - e).toNat, by omega⟩
    have hdiv : (n : ℚ) / 2 ^ k / 2 ^ (e - 52) = ((n * 2 ^ j : ℤ) : ℚ) := by
      have : (2 : ℚ) ^ (e - 52) = 2 ^ (-(k : ℤ) - j) := by congr 1; omega
      rw [this, zpow_sub₀ (by norm_num), zpow_neg, zpow_natCast, zpow_natCast]
      push_cast
      field_simp
    rw [hdiv, nearbyint_int, ← hdiv]
    field_simp

/-- C30: with the arithmetic of doubles, the conclusions of `C30_closest_partial` hold for a κ that has a few trailing zeroes. -/
theorem C30_double (n : ℤ) (k : ℕ) (max : ℤ) (h1 : 1 ≤ max) (hn : max * (|n| + 2 ^ k) < 2 ^ 53) :
    Exact binary64 ((n : ℚ) / 2 ^ k) max := by
  intro p q hp hb
  have e : (p : ℚ) * ((n : ℚ) / 2 ^ k) + q = ((p * n + q * 2 ^ k : ℤ) : ℚ) / 2 ^ k := by
    push_cast; field_simp
  rw [e] at hb ⊢
  apply binary64_exact
  rw [abs_div, abs_div, abs_of_pos (by positivity : (0 : ℚ) < 2 ^ k), div_le_iff₀ (by positivity)] at hb
  have hb' : |((p * n + q * 2 ^ k : ℤ) : ℚ)| ≤ ((max * (|n| + 2 ^ k) : ℤ) : ℚ) := by
    refine hb.trans (le_of_eq ?_)
    push_cast; field_simp
  rw [← Int.cast_abs] at hb'
  have hb'' : |p * n + q * 2 ^ k| ≤ max * (|n| + 2 ^ k) := by exact_mod_cast hb'
  omega

/-- C30: with the arithmetic of doubles, for the κ whose hexadecimal representation is 0x1.6666666666667p0 (7/5, rounded up), the rounding of
5 κ is not 7, but that of 25 κ is 35: the triple [1; 10; 25] fails the check of the constructor.  The program crashes. -/
theorem C30_crash_counterexample :
    closestRecurrence binary64 (some (0x16666666666667 / 2 ^ 52)) 100 = .crash ∧
    closestRecurrence id (some (0x16666666666667 / 2 ^ 52)) 100 = .ok ⟨1, 2, 5, 2⟩ := by
  constructor <;> decide +kernel

/-- C30: if no cycle is allowed, an uninitialized variable is used. -/
theorem C30_no_cycle_counterexample : closestRecurrence id (some 2) 0 = .crash := by decide +kernel

example : closestRecurrence binary64 (some (127 / 2 ^ 3)) 100 = .ok ⟨16, -1, 8, 1⟩ := by decide +kernel
example : Exact binary64 ((127 : ℤ) / 2 ^ 3) 100 := C30_double 127 3 100 (by norm_num) (by norm_num)

end Principia.Recurrence
