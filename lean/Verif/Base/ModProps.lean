import Verif.Base.ModModel

/-!
# C04: properties of `mod`

The specification is `IsMod a b off r`: `r` is congruent to `a` modulo `b` and lies in `[off, off + b[` if `b > 0`, in
`]off + b, off]` if `b < 0`, as documented in base/mod.hpp:9-17.
-/

namespace Principia.Mod

/-- Specification: base/mod.hpp:15-17 (comment). -/
def IsMod (a b off r : Int) : Prop :=
  b ∣ (a - r) ∧ (0 < b → off ≤ r ∧ r < off + b) ∧ (b < 0 → off + b < r ∧ r ≤ off)

theorem tmod_cases (a b : Int) (hb : b ≠ 0) :
    b ∣ (a - a.tmod b) ∧ -(b.natAbs : Int) < a.tmod b ∧ a.tmod b < b.natAbs := by
  refine ⟨⟨a.tdiv b, ?_⟩, ?_, ?_⟩
  · have := Int.mul_tdiv_add_tmod a b; omega
  · have h := Int.natAbs_tmod a b
    have hlt : a.natAbs % b.natAbs < b.natAbs := Nat.mod_lt _ (by omega)
    omega
  · have h := Int.natAbs_tmod a b
    have hlt : a.natAbs % b.natAbs < b.natAbs := Nat.mod_lt _ (by omega)
    omega

/-- Uniqueness: the specification determines the result. -/
theorem IsMod_unique {a b off r s : Int} (hb : b ≠ 0)
    (hr : IsMod a b off r) (hs : IsMod a b off s) : r = s := by
  obtain ⟨h0, h1, h2⟩ := hr
  obtain ⟨h0', h3, h4⟩ := hs
  have hd : b ∣ r - s := by
    have := Int.dvd_sub h0' h0
    have e : a - s - (a - r) = r - s := by omega
    rwa [e] at this
  have hlt : (r - s).natAbs < b.natAbs := by omega
  have := Int.eq_zero_of_dvd_of_natAbs_lt_natAbs hd hlt
  omega

theorem tdiv_inInt {a b : Int} (ha : inInt a) (hb : inInt b)
    (hne : ¬(a = -2147483648 ∧ b = -1)) : inInt (a.tdiv b) := by
  have h1 : (a.tdiv b).natAbs = a.natAbs / b.natAbs := Int.natAbs_tdiv a b
  have h2 : a.natAbs / b.natAbs ≤ a.natAbs := Nat.div_le_self _ _
  unfold inInt at *
  by_cases hm : a = -2147483648
  · have hb1 : b ≠ -1 := fun h => hne ⟨hm, h⟩
    by_cases hb2 : 2 ≤ b.natAbs
    · have h3 : a.natAbs / b.natAbs ≤ a.natAbs / 2 := Nat.div_le_div_left hb2 (by omega)
      have : a.natAbs = 2147483648 := by omega
      rw [this] at h3 h1
      omega
    · have hb3 : b = 0 ∨ b = 1 := by omega
      rcases hb3 with h | h <;> subst h <;> simp <;> omega
  · omega

/-- **C04**: whenever the intermediate sum is representable (and the case `INT_MIN % -1` is excluded), `mod` is defined
and returns the unique number congruent to the dividend in `[0, divisor[` (resp. `]divisor, 0]`). -/
theorem C04_mod (a b : Int) (ha : inInt a) (hb : inInt b) (hb0 : b ≠ 0)
    (hne : ¬(a = -2147483648 ∧ b = -1))
    (hov : inInt (a.tmod b + b)) :
    ∃ r, mod2 a b = some r ∧ IsMod a b 0 r ∧ ∀ s, IsMod a b 0 s → s = r := by
  obtain ⟨⟨k, hk⟩, hlo, hhi⟩ := tmod_cases a b hb0
  obtain ⟨⟨l, hl⟩, hlo', hhi'⟩ := tmod_cases (a.tmod b + b) b hb0
  have hspec : IsMod a b 0 ((a.tmod b + b).tmod b) := by
    refine ⟨⟨k + l - 1, ?_⟩, ?_, ?_⟩
    · have : b * (k + l - 1) = b * k + b * l - b := by rw [Int.mul_sub, Int.mul_add]; omega
      omega
    · intro hpos
      have : 0 ≤ (a.tmod b + b).tmod b := Int.tmod_nonneg _ (by omega)
      omega
    · intro hneg
      have h0 : (-(a.tmod b + b)).tmod b = -((a.tmod b + b).tmod b) := Int.neg_tmod _ _
      have : 0 ≤ (-(a.tmod b + b)).tmod b := Int.tmod_nonneg _ (by omega)
      omega
  have hs2 : ¬(a.tmod b + b = -2147483648 ∧ b = -1) := by
    rintro ⟨h1, h2⟩; subst h2; simp at h1
  refine ⟨(a.tmod b + b).tmod b, ?_, hspec, fun s hs => IsMod_unique hb0 hs hspec⟩
  have e1 : cppRem a b = some (a.tmod b) := by
    unfold cppRem; simp [hb0, tdiv_inInt ha hb hne]
  have e2 : ck (a.tmod b + b) = some (a.tmod b + b) := by unfold ck; simp [hov]
  have e3 : cppRem (a.tmod b + b) b = some ((a.tmod b + b).tmod b) := by
    unfold cppRem; simp [hb0, tdiv_inInt hov hb hs2]
  simp [mod2, e1, e2, e3]

/-- A sufficient condition that does not mention the implementation: no overflow can occur when the magnitude of the
divisor is at most 2^30; this covers all the uses of `mod` in the repository. -/
theorem C04_mod_small_divisor (a b : Int) (ha : inInt a) (hb0 : b ≠ 0)
    (hb : -1073741824 ≤ b ∧ b ≤ 1073741824) (hne : ¬(a = -2147483648 ∧ b = -1)) :
    ∃ r, mod2 a b = some r ∧ IsMod a b 0 r ∧ ∀ s, IsMod a b 0 s → s = r := by
  have h := tmod_cases a b hb0
  apply C04_mod a b ha (by unfold inInt; omega) hb0 hne
  unfold inInt; omega

example : ∃ r, mod2 (-7) 3 = some r ∧ IsMod (-7) 3 0 r := by
  obtain ⟨r, h1, h2, _⟩ := C04_mod_small_divisor (-7) 3 (by decide) (by decide) (by decide) (by decide)
  exact ⟨r, h1, h2⟩
example : mod2 (-7) 3 = some 2 := by decide
example : mod2 7 (-3) = some (-2) := by decide

/-- **C04**, three-argument form: whenever the intermediate results and the answer are representable. -/
theorem C04_mod_offset (a b off : Int) (ha : inInt (a - off)) (hb : inInt b) (hb0 : b ≠ 0)
    (hne : ¬(a - off = -2147483648 ∧ b = -1)) (hov : inInt ((a - off).tmod b + b))
    (hans : ∀ r, IsMod a b off r → inInt r) :
    ∃ r, mod3 a b off = some r ∧ IsMod a b off r ∧ ∀ s, IsMod a b off s → s = r := by
  obtain ⟨r, h1, h2, _⟩ := C04_mod (a - off) b ha hb hb0 hne hov
  have hspec : IsMod a b off (r + off) := by
    obtain ⟨⟨k, hk⟩, h3, h4⟩ := h2
    exact ⟨⟨k, by omega⟩, by omega, by omega⟩
  refine ⟨r + off, ?_, hspec, fun s hs => IsMod_unique hb0 hs hspec⟩
  have e1 : ck (a - off) = some (a - off) := by unfold ck; simp [ha]
  have e2 : ck (r + off) = some (r + off) := by
    unfold ck; rw [if_pos (hans _ hspec)]
  simp [mod3, e1, h1, e2]

example : ∃ r, mod3 5 7 (-2) = some r ∧ IsMod 5 7 (-2) r := by
  obtain ⟨r, h1, h2, _⟩ := C04_mod_offset 5 7 (-2) (by decide) (by decide) (by decide) (by decide) (by decide) (by
    intro r hr; obtain ⟨_, h3, _⟩ := hr; have := h3 (by decide); unfold inInt; omega)
  exact ⟨r, h1, h2⟩
example : mod3 2 7 (-2) = some 2 := by decide
example : mod3 5 7 (-2) = some (-2) := by decide

/-- The property fails without the representability hypothesis: `mod(INT_MAX - 1, INT_MAX)` overflows although both its
arguments and its mathematical value are representable. -/
theorem C04_mod_overflow_counterexample :
    inInt 2147483646 ∧ inInt 2147483647 ∧ IsMod 2147483646 2147483647 0 2147483646 ∧
      mod2 2147483646 2147483647 = none := by
  refine ⟨by decide, by decide, ⟨⟨0, by decide⟩, by decide, by decide⟩, by decide⟩

end Principia.Mod
