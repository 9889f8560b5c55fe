import Verif.Integrators.OrderSteps
import Verif.Integrators.MethodsModel
import Mathlib.Data.Rat.Cast.Lemmas
import Mathlib.Algebra.BigOperators.Field

/-!
The evaluation of the order conditions for tables of coefficients.
-/

set_option linter.unusedSimpArgs false
set_option linter.unusedVariables false
set_option linter.unusedSectionVars false

namespace Principia.Integrators

/-- The inverse of the weight of the exact solution. -/
def Forest.density : Forest → ℕ
  | nil => 1
  | v r => r.density
  | g κ c r => (if κ then c.order + 1 else (c.order + 1) * (c.order + 2)) * c.density * r.density

theorem Forest.exact_eq_density (φ : Forest) : φ.exact = 1 / (φ.density : ℝ) := by
  induction φ with
  | nil => simp [exact, density]
  | v r ih => rw [exact, density, ih]
  | g κ c r ihc ihr =>
    rw [exact, density, ihc, ihr]
    cases κ <;> simp only [Bool.false_eq_true, if_false, if_true] <;> push_cast <;> rw [div_div, div_mul_div_comm, one_mul] <;> congr 1 <;> ring

theorem Forest.density_pos (φ : Forest) : 0 < φ.density := by
  induction φ with
  | nil => simp [density]
  | v r ih => exact ih
  | g κ c r ihc ihr =>
    rw [density]
    have : 0 < (if κ then c.order + 1 else (c.order + 1) * (c.order + 2)) := by cases κ <;> simp
    positivity

/-! ### Rational coefficients -/

theorem Forest.stage_cast (c : ℕ → ℚ) (a : Bool → ℕ → ℕ → ℚ) (φ : Forest) (i : ℕ) :
    ((φ.stage c a i : ℚ) : ℝ) = φ.stage (fun i => (c i : ℝ)) (fun κ i j => (a κ i j : ℝ)) i := by
  induction φ generalizing i with
  | nil => simp [stage]
  | v r ih => rw [stage, stage, ← ih]; push_cast; rfl
  | g κ ψ r ihψ ihr =>
    rw [stage, stage, ← ihr]
    simp only [← ihψ]
    push_cast
    rfl

/-- Whether an order condition is met for all the forests of order less than `p`. -/
def checkRational (kinds : List Bool) (stages : ℕ) (c : ℕ → ℚ) (a : Bool → ℕ → ℕ → ℚ) (b : ℕ → ℚ) (κ : Bool) (p : ℕ) : Bool :=
  (List.range p).all fun n => (forests kinds n).all fun φ =>
    ((List.range stages).map fun i => b i * φ.stage c a i).sum * ((if κ then φ.order + 1 else (φ.order + 1) * (φ.order + 2)) * φ.density : ℕ) == 1

theorem checkRational_spec (kinds : List Bool) (stages : ℕ) (c : ℕ → ℚ) (a : Bool → ℕ → ℕ → ℚ) (b : ℕ → ℚ) (κ : Bool) (p : ℕ) (h : checkRational kinds stages c a b κ p = true) (φ : Forest)
    (hu : φ.Uses kinds) (ho : φ.order < p) :
    ∑ i ∈ Finset.range stages, (b i : ℝ) * φ.stage (fun i => (c i : ℝ)) (fun κ i j => (a κ i j : ℝ)) i =
      if κ then φ.exact / (φ.order + 1) else φ.exact / ((φ.order + 1) * (φ.order + 2)) := by
  rw [checkRational, List.all_eq_true] at h
  have h1 := h φ.order (List.mem_range.mpr ho)
  rw [List.all_eq_true] at h1
  have h2 := h1 φ ((mem_forests kinds _ φ).mpr ⟨rfl, hu⟩)
  rw [beq_iff_eq, sum_map_range] at h2
  have h3 : (∑ i ∈ Finset.range stages, (b i : ℝ) * φ.stage (fun i => (c i : ℝ)) (fun κ i j => (a κ i j : ℝ)) i) *
      (((if κ then φ.order + 1 else (φ.order + 1) * (φ.order + 2)) * φ.density : ℕ) : ℝ) = 1 := by
    have := congrArg (fun x : ℚ => (x : ℝ)) h2
    simp only [Rat.cast_mul, Rat.cast_sum, Forest.stage_cast, Rat.cast_natCast, Rat.cast_one] at this
    exact this
  have hd : (0 : ℝ) < φ.density := by exact_mod_cast φ.density_pos
  have ho1 : (0 : ℝ) < (φ.order : ℝ) + 1 := by positivity
  have ho2 : (0 : ℝ) < (φ.order : ℝ) + 2 := by positivity
  rw [φ.exact_eq_density]
  cases κ
  · simp only [Bool.false_eq_true, if_false] at h3 ⊢
    push_cast at h3
    rw [div_div, eq_div_iff (by positivity)]
    linarith
  · simp only [if_true] at h3 ⊢
    push_cast at h3
    rw [div_div, eq_div_iff (by positivity)]
    linarith

/-! ### The symplectic methods -/

/-- The weights of the stages, when all the coefficients are divided by `S`. -/
theorem Forest.stage_scaled (S : ℝ) (hS : S ≠ 0) (B C : ℕ → ℤ) (φ : Forest) (hφ : φ.Uses [false]) (i : ℕ) :
    φ.stage (fun i => (C i : ℝ) / S) (fun _ i j => (B j : ℝ) / S * ((C i : ℝ) / S - (C j : ℝ) / S)) i = (φ.stage C (fun _ i j => B j * (C i - C j)) i : ℤ) / S ^ φ.order := by
  induction φ generalizing i with
  | nil => simp [stage, order]
  | v r ih =>
    rw [stage, stage, order, ih hφ]
    push_cast
    rw [pow_add, pow_one]
    field_simp
  | g κ ψ r ihψ ihr =>
    obtain ⟨hκ, hψ, hr⟩ := hφ
    obtain rfl : κ = false := by simpa using hκ
    rw [stage, stage, order, ihr hr]
    simp only [ihψ hψ]
    push_cast
    have : degree false = 2 := rfl
    rw [this, pow_add, pow_add, Finset.sum_mul, Finset.sum_mul, Finset.sum_div]
    refine Finset.sum_congr rfl fun j _ => ?_
    field_simp

/-- The weights of a forest at all the stages, with its order and its density. -/
structure Item where
  order : ℕ
  density : ℕ
  w : List ℤ
  deriving DecidableEq

/-- The values of the cᵢ Σ bⱼ wⱼ − Σ bⱼ cⱼ wⱼ, where the sums are over the preceding elements; `P` and `Q` are the values of the sums. -/
def gPart : List ℤ → List ℤ → List ℤ → ℤ → ℤ → List ℤ
  | b :: bs, c :: cs, w :: ws, P, Q => (c * P - Q) :: gPart bs cs ws (P + b * w) (Q + b * c * w)
  | _, _, _, _, _ => []

def vItem (c : List ℤ) (r : Item) : Item := ⟨1 + r.order, r.density, List.zipWith (· * ·) c r.w⟩

def gItem (φ : Item) (gp : List ℤ) (r : Item) : Item := ⟨2 + φ.order + r.order, (φ.order + 1) * (φ.order + 2) * φ.density * r.density, List.zipWith (· * ·) gp r.w⟩

/-- The items of the next order, given those of the preceding ones, from the last to the first. -/
def nextItems (b c : List ℤ) (T : List (List Item)) : List Item :=
  (T.headD []).map (vItem c) ++ (List.zip T.tail T.tail.reverse).flatMap fun p => p.1.flatMap fun φ => p.2.map (gItem φ (gPart b c φ.w 0 0))

def itemTable (b c : List ℤ) : ℕ → List (List Item)
  | 0 => [[⟨0, 1, b.map fun _ => 1⟩]]
  | n + 1 => nextItems b c (itemTable b c n) :: itemTable b c n

def Forest.item (b c : List ℤ) : Forest → Item
  | nil => ⟨0, 1, b.map fun _ => 1⟩
  | v r => vItem c (r.item b c)
  | g _ φ r => gItem (φ.item b c) (gPart b c (φ.item b c).w 0 0) (r.item b c)

theorem itemTable_length (b c : List ℤ) (n : ℕ) : (itemTable b c n).length = n + 1 := by
  induction n with
  | zero => rfl
  | succ n ih => rw [itemTable, List.length_cons, ih]

theorem itemTable_getElem (b c : List ℤ) : ∀ (n k : ℕ), k ≤ n → (itemTable b c n)[n - k]? = (itemTable b c k)[0]? := by
  intro n
  induction n with
  | zero =>
    intro k hk
    obtain rfl := Nat.le_zero.mp hk
    rfl
  | succ n ih =>
    intro k hk
    rcases Nat.eq_or_lt_of_le hk with rfl | hk'
    · simp
    · rw [show n + 1 - k = (n - k) + 1 by omega, itemTable, List.getElem?_cons_succ]
      exact ih k (by omega)

/-- The items of a given order. -/
def items (b c : List ℤ) (n : ℕ) : List Item := (itemTable b c n).headD []

theorem itemTable_getElem' (b c : List ℤ) (n k : ℕ) (hk : k ≤ n) : (itemTable b c n)[n - k]? = some (items b c k) := by
  rw [itemTable_getElem b c n k hk, items]
  cases h : itemTable b c k with
  | nil =>
    have := itemTable_length b c k
    rw [h] at this
    simp at this
  | cons a l => simp

theorem mem_items (b c : List ℤ) : ∀ (n : ℕ) (φ : Forest), φ.Uses [false] → φ.order = n → φ.item b c ∈ items b c n := by
  intro n
  induction n using Nat.strong_induction_on with
  | _ n ih =>
    intro φ hφ ho
    rcases n with _ | n
    · cases φ with
      | nil => simp [items, itemTable, Forest.item]
      | v r => simp [Forest.order] at ho
      | g κ ψ r => have := degree_pos κ; simp [Forest.order] at ho; omega
    · have hitems : items b c (n + 1) = nextItems b c (itemTable b c n) := rfl
      rw [hitems, nextItems, List.mem_append]
      cases φ with
      | nil => simp [Forest.order] at ho
      | v r =>
        left
        rw [List.mem_map]
        exact ⟨r.item b c, ih n (by omega) r hφ (by simp [Forest.order] at ho; omega), rfl⟩
      | g κ ψ r =>
        right
        obtain ⟨hκ, hψ, hr⟩ := hφ
        obtain rfl : κ = false := by simpa using hκ
        have hd : degree false = 2 := rfl
        simp only [Forest.order, hd] at ho
        obtain ⟨m, rfl⟩ : ∃ m, n = m + 1 := ⟨n - 1, by omega⟩
        have htail : (itemTable b c (m + 1)).tail = itemTable b c m := rfl
        have hlen := itemTable_length b c m
        rw [htail, List.mem_flatMap]
        have h1 := itemTable_getElem' b c m ψ.order (by omega)
        have h2 := itemTable_getElem' b c m r.order (by omega)
        have h3 : (itemTable b c m).reverse[m - ψ.order]? = some (items b c r.order) := by
          rw [List.getElem?_reverse (by omega), hlen, ← h2]
          congr 1
          omega
        refine ⟨(items b c ψ.order, items b c r.order), ?_, ?_⟩
        · rw [List.mem_iff_getElem?]
          exact ⟨m - ψ.order, by rw [List.getElem?_zip_eq_some]; exact ⟨h1, h3⟩⟩
        · rw [List.mem_flatMap]
          refine ⟨ψ.item b c, ih _ (by omega) ψ hψ rfl, ?_⟩
          rw [List.mem_map]
          exact ⟨r.item b c, ih _ (by omega) r hr rfl, rfl⟩

theorem Forest.item_order (b c : List ℤ) (φ : Forest) (hφ : φ.Uses [false]) : (φ.item b c).order = φ.order ∧ (φ.item b c).density = φ.density := by
  induction φ with
  | nil => exact ⟨rfl, rfl⟩
  | v r ih =>
    obtain ⟨h1, h2⟩ := ih hφ
    exact ⟨by rw [item, vItem, order, h1], by rw [item, vItem, density, h2]⟩
  | g κ ψ r ihψ ihr =>
    obtain ⟨hκ, hψ, hr⟩ := hφ
    obtain rfl : κ = false := by simpa using hκ
    obtain ⟨h1, h2⟩ := ihψ hψ
    obtain ⟨h3, h4⟩ := ihr hr
    refine ⟨by rw [item, gItem, order, h1, h3]; rfl, ?_⟩
    rw [item, gItem, density, h1, h2, h4]
    simp

theorem gPart_getElem : ∀ (b c w : List ℤ) (P Q : ℤ) (i : ℕ), i < b.length → c.length = b.length → w.length = b.length →
    (gPart b c w P Q)[i]? = some (c.getD i 0 * (P + ∑ j ∈ Finset.range i, b.getD j 0 * w.getD j 0) - (Q + ∑ j ∈ Finset.range i, b.getD j 0 * c.getD j 0 * w.getD j 0))
  | [], _, _, _, _, _, h, _, _ => by simp at h
  | b :: bs, [], _, _, _, _, _, h, _ => by simp at h
  | b :: bs, c :: cs, [], _, _, _, _, _, h => by simp at h
  | b :: bs, c :: cs, w :: ws, P, Q, 0, _, _, _ => by simp [gPart]
  | b :: bs, c :: cs, w :: ws, P, Q, i + 1, h, hc, hw => by
    rw [gPart, List.getElem?_cons_succ, gPart_getElem bs cs ws _ _ i (by simpa using h) (by simpa using hc) (by simpa using hw)]
    rw [Finset.sum_range_succ', Finset.sum_range_succ']
    simp only [List.getD_cons_succ, List.getD_cons_zero]
    congr 1
    ring

theorem gPart_length : ∀ (b c w : List ℤ) (P Q : ℤ), c.length = b.length → w.length = b.length → (gPart b c w P Q).length = b.length
  | [], _, _, _, _, _, _ => by simp [gPart]
  | b :: bs, [], _, _, _, h, _ => by simp at h
  | b :: bs, c :: cs, [], _, _, _, h => by simp at h
  | b :: bs, c :: cs, w :: ws, P, Q, hc, hw => by rw [gPart, List.length_cons, gPart_length bs cs ws _ _ (by simpa using hc) (by simpa using hw), List.length_cons]

theorem Forest.item_w (b c : List ℤ) (hc : c.length = b.length) (φ : Forest) (hφ : φ.Uses [false]) : (φ.item b c).w.length = b.length ∧
    ∀ i < b.length, (φ.item b c).w.getD i 0 = φ.stage (fun i => c.getD i 0) (fun _ i j => b.getD j 0 * (c.getD i 0 - c.getD j 0)) i := by
  induction φ with
  | nil =>
    refine ⟨by simp [item], fun i hi => ?_⟩
    simp [item, stage, List.getD_eq_getElem?_getD, hi]
  | v r ih =>
    obtain ⟨h1, h2⟩ := ih hφ
    refine ⟨by simp [item, vItem, h1, hc], fun i hi => ?_⟩
    rw [stage, ← h2 i hi, item, vItem]
    simp only [List.getD_eq_getElem?_getD, List.getElem?_zipWith]
    rw [List.getElem?_eq_getElem (show i < c.length by omega), List.getElem?_eq_getElem (show i < (r.item b c).w.length by omega)]
    simp
  | g κ ψ r ihψ ihr =>
    obtain ⟨hκ, hψ, hr⟩ := hφ
    obtain ⟨h1, h2⟩ := ihψ hψ
    obtain ⟨h3, h4⟩ := ihr hr
    have hg := gPart_length b c (ψ.item b c).w 0 0 hc h1
    refine ⟨by simp [item, gItem, h3, hg], fun i hi => ?_⟩
    rw [stage, ← h4 i hi, item, gItem]
    simp only [List.getD_eq_getElem?_getD, List.getElem?_zipWith]
    rw [gPart_getElem b c _ 0 0 i hi hc h1, List.getElem?_eq_getElem (show i < (r.item b c).w.length by omega)]
    simp only [Option.getD_some, zero_add, Finset.mul_sum, ← Finset.sum_sub_distrib]
    congr 1
    refine Finset.sum_congr rfl fun j hj => ?_
    have := Finset.mem_range.mp hj
    have h5 := h2 j (by omega)
    simp only [List.getD_eq_getElem?_getD] at h5 ⊢
    rw [← h5]
    ring

/-- The sum of the products. -/
def dot : List ℤ → List ℤ → ℤ
  | x :: xs, y :: ys => x * y + dot xs ys
  | _, _ => 0

theorem dot_eq : ∀ (x y : List ℤ), y.length = x.length → dot x y = ∑ i ∈ Finset.range x.length, x.getD i 0 * y.getD i 0
  | [], _, _ => by simp [dot]
  | x :: xs, [], h => by simp at h
  | x :: xs, y :: ys, h => by
    rw [dot, dot_eq xs ys (by simpa using h), List.length_cons, Finset.sum_range_succ']
    simp [add_comm]

/-- Whether `X / S` is the inverse of `d`, up to 10⁻ᵏ. -/
def near (X : ℤ) (S d k : ℕ) : Bool := decide (|(d : ℤ) * X - S| * 10 ^ k ≤ d * S)

theorem near_spec {X : ℤ} {S d k : ℕ} (hS : 0 < S) (hd : 0 < d) (h : near X S d k = true) : |(X : ℝ) / S - 1 / d| ≤ 1 / 10 ^ k := by
  rw [near, decide_eq_true_eq] at h
  have h1 : |(d : ℝ) * X - S| * 10 ^ k ≤ d * S := by exact_mod_cast h
  have hS' : (0 : ℝ) < S := by exact_mod_cast hS
  have hd' : (0 : ℝ) < d := by exact_mod_cast hd
  have h2 : (X : ℝ) / S - 1 / d = (d * X - S) / (d * S) := by field_simp
  rw [h2, abs_div, abs_of_pos (by positivity : (0 : ℝ) < d * S), div_le_div_iff₀ (by positivity) (by positivity), one_mul]
  exact h1

/-- The sums of the first elements. -/
def SymplecticTable.c (t : SymplecticTable) (i : ℕ) : ℤ := (t.a.take i).sum

def SymplecticTable.cs (t : SymplecticTable) : List ℤ := (List.range t.b.length).map t.c

/-- The weights of the positions. -/
def SymplecticTable.bp (t : SymplecticTable) : List ℤ := List.zipWith (fun b c => b * (t.c t.b.length - c)) t.b t.cs

/-- Whether the order conditions are met for an order, up to 10⁻ᵏ. -/
def SymplecticTable.check (t : SymplecticTable) (p k : ℕ) : Bool :=
  decide (0 < t.denominator) && near (t.c t.b.length) t.denominator 1 k &&
    ((itemTable t.b t.cs (p - 1)).all fun l => l.all fun φ =>
      near (dot t.b φ.w) (t.denominator ^ (φ.order + 1)) ((φ.order + 1) * φ.density) k &&
        (decide (p ≤ φ.order + 1) || near (dot t.bp φ.w) (t.denominator ^ (φ.order + 2)) ((φ.order + 1) * (φ.order + 2) * φ.density) k))

theorem SymplecticTable.method_c (t : SymplecticTable) (i : ℕ) : t.method.c i = (t.c i : ℝ) / t.denominator := by
  rw [SRKN.c, SymplecticTable.c]
  induction i with
  | zero => simp
  | succ i ih =>
    rw [Finset.sum_range_succ, ih]
    have : (t.a.take (i + 1)).sum = (t.a.take i).sum + t.a.getD i 0 := by
      rw [List.take_add_one, List.sum_append, List.getD_eq_getElem?_getD]
      cases t.a[i]? <;> simp
    rw [this]
    push_cast
    rw [add_div]
    rfl

theorem SymplecticTable.check_spec (t : SymplecticTable) (p k : ℕ) (hp : 0 < p) (h : t.check p k = true) : t.method.OrderConditions p (1 / 10 ^ k) := by
  rw [SymplecticTable.check, Bool.and_eq_true, Bool.and_eq_true, decide_eq_true_eq, List.all_eq_true] at h
  obtain ⟨⟨hden, hsum⟩, hall⟩ := h
  have hS : (t.denominator : ℝ) ≠ 0 := by exact_mod_cast hden.ne'
  have hlen : t.cs.length = t.b.length := by simp [SymplecticTable.cs]
  have hcs : ∀ i < t.b.length, t.cs.getD i 0 = t.c i := by
    intro i hi
    rw [SymplecticTable.cs, List.getD_eq_getElem?_getD, List.getElem?_map, List.getElem?_range hi]
    rfl
  have hstage : ∀ φ : Forest, φ.Uses [false] → ∀ i < t.b.length, φ.stage t.method.c (fun _ => t.method.nystrom) i = ((φ.item t.b t.cs).w.getD i 0 : ℝ) / (t.denominator : ℝ) ^ φ.order := by
    intro φ hφ i hi
    rw [(φ.item_w t.b t.cs hlen hφ).2 i hi]
    have h1 := φ.stage_scaled t.denominator hS (fun i => t.b.getD i 0) t.c hφ i
    have h2 : t.method.c = fun i => (t.c i : ℝ) / t.denominator := funext t.method_c
    have h3 : (fun _ : Bool => t.method.nystrom) = fun _ i j => ((t.b.getD j 0 : ℤ) : ℝ) / t.denominator * ((t.c i : ℝ) / t.denominator - (t.c j : ℝ) / t.denominator) := by
      funext _ i j
      rw [SRKN.nystrom, t.method_c, t.method_c]
      rfl
    rw [h2, h3, h1]
    congr 2
    -- The stages only depend on the nodes of index at most `i`.
    have hcong : ∀ (ψ : Forest) (i : ℕ), i < t.b.length →
        ψ.stage t.c (fun _ i j => t.b.getD j 0 * (t.c i - t.c j)) i = ψ.stage (fun i => t.cs.getD i 0) (fun _ i j => t.b.getD j 0 * (t.cs.getD i 0 - t.cs.getD j 0)) i := by
      intro ψ
      induction ψ with
      | nil => intro i hi; rfl
      | v r ih => intro i hi; rw [Forest.stage, Forest.stage, ih i hi, hcs i hi]
      | g κ χ r ihχ ihr =>
        intro i hi
        rw [Forest.stage, Forest.stage, ihr i hi, hcs i hi]
        congr 1
        refine Finset.sum_congr rfl fun j hj => ?_
        have := Finset.mem_range.mp hj
        rw [ihχ j (by omega), hcs j (by omega)]
    exact hcong φ i hi
  have hcheck : ∀ φ : Forest, φ.Uses [false] → φ.order < p → near (dot t.b (φ.item t.b t.cs).w) (t.denominator ^ (φ.order + 1)) ((φ.order + 1) * φ.density) k = true ∧
      (φ.order + 1 < p → near (dot t.bp (φ.item t.b t.cs).w) (t.denominator ^ (φ.order + 2)) ((φ.order + 1) * (φ.order + 2) * φ.density) k = true) := by
    intro φ hφ ho
    have h1 := itemTable_getElem' t.b t.cs (p - 1) φ.order (by omega)
    have h2 := hall _ (List.mem_of_getElem? h1)
    rw [List.all_eq_true] at h2
    have h3 := h2 _ (mem_items t.b t.cs φ.order φ hφ rfl)
    obtain ⟨h4, h5⟩ := φ.item_order t.b t.cs hφ
    rw [h4, h5, Bool.and_eq_true, Bool.or_eq_true, decide_eq_true_eq] at h3
    exact ⟨h3.1, fun ho' => h3.2.resolve_left (by omega)⟩
  refine ⟨?_, fun φ hφ ho => ?_, fun φ hφ ho => ?_⟩
  · have := near_spec hden one_pos hsum
    rw [show t.method.stages = t.b.length from rfl, t.method_c]
    simpa using this
  · have h1 := near_spec (Nat.pow_pos hden) (by have := φ.density_pos; positivity) ((hcheck φ hφ (by omega)).2 ho)
    have hwlen := (φ.item_w t.b t.cs hlen hφ).1
    have hbp : t.bp.length = t.b.length := by simp [SymplecticTable.bp, hlen]
    have h2 : ∑ i ∈ Finset.range t.method.stages, t.method.nystrom t.method.stages i * φ.stage t.method.c (fun _ => t.method.nystrom) i =
        (dot t.bp (φ.item t.b t.cs).w : ℝ) / ((t.denominator ^ (φ.order + 2) : ℕ) : ℝ) := by
      rw [dot_eq _ _ (by rw [hwlen, hbp]), hbp]
      push_cast
      rw [Finset.sum_div]
      refine Finset.sum_congr rfl fun i hi => ?_
      have hi' : i < t.b.length := Finset.mem_range.mp hi
      rw [hstage φ hφ i hi', SRKN.nystrom, t.method_c, t.method_c]
      have hb : t.bp.getD i 0 = t.b.getD i 0 * (t.c t.b.length - t.c i) := by
        rw [SymplecticTable.bp, List.getD_eq_getElem?_getD, List.getElem?_zipWith, List.getElem?_eq_getElem hi', List.getElem?_eq_getElem (by omega)]
        have := hcs i hi'
        rw [List.getD_eq_getElem?_getD, List.getElem?_eq_getElem (by omega)] at this
        simp only [Option.getD_some] at this ⊢
        rw [this, List.getD_eq_getElem?_getD, List.getElem?_eq_getElem hi']
        rfl
      rw [hb]
      push_cast
      show (t.b.getD i 0 : ℝ) / t.denominator * ((t.c t.b.length : ℝ) / t.denominator - (t.c i : ℝ) / t.denominator) * _ = _
      rw [pow_add, pow_two]
      field_simp
    rw [h2, φ.exact_eq_density]
    convert h1 using 3
    push_cast
    rw [div_div]
    congr 1
    ring
  · have h1 := near_spec (Nat.pow_pos hden) (by have := φ.density_pos; positivity) (hcheck φ hφ ho).1
    have hwlen := (φ.item_w t.b t.cs hlen hφ).1
    have h2 : ∑ i ∈ Finset.range t.method.stages, t.method.b i * φ.stage t.method.c (fun _ => t.method.nystrom) i =
        (dot t.b (φ.item t.b t.cs).w : ℝ) / ((t.denominator ^ (φ.order + 1) : ℕ) : ℝ) := by
      rw [dot_eq _ _ hwlen]
      push_cast
      rw [Finset.sum_div]
      refine Finset.sum_congr rfl fun i hi => ?_
      have hi' : i < t.b.length := Finset.mem_range.mp hi
      rw [hstage φ hφ i hi']
      show (t.b.getD i 0 : ℝ) / t.denominator * _ = _
      rw [pow_add, pow_one]
      field_simp
    rw [h2, φ.exact_eq_density]
    convert h1 using 3
    push_cast
    rw [div_div]
    congr 1
    ring

end Principia.Integrators
