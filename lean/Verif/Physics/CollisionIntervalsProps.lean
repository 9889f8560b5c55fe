import Verif.Physics.CollisionIntervalsModel
import Verif.Numerics.BrentProps
import Mathlib.Order.Monotone.Defs

set_option linter.unusedSimpArgs false
set_option linter.unusedVariables false
set_option linter.unusedSectionVars false

/-!
# C64: the collision intervals
-/

namespace Principia.CollisionIntervals

open Principia.RootFinders

/-! ### Specification -/

/-- Two consecutive elements of a set of instants. -/
def Consecutive (S : Set ℝ) (s t : ℝ) : Prop := s ∈ S ∧ t ∈ S ∧ s < t ∧ ∀ u ∈ S, u ≤ s ∨ t ≤ u

/-- The times of the apsides: the distance is monotonic between two of them, and apoapsides and periapsides alternate. -/
structure AreApsides (distance2 : ℝ → ℝ) (S : Set ℝ) : Prop where
  monotone : ∀ s t, Consecutive S s t → MonotoneOn distance2 (Set.Icc s t) ∨ AntitoneOn distance2 (Set.Icc s t)
  ne : ∀ s t, Consecutive S s t → distance2 s ≠ distance2 t
  alternate : ∀ s t u, Consecutive S s t → Consecutive S t u → (distance2 s < distance2 t ↔ distance2 u < distance2 t)

/-- The bounds of an interval are computed with a relative accuracy of 4 ϵ. -/
def Near (computed exact : Interval) : Prop := |exact.min - computed.min| ≤ 4 / 2 ^ 53 * |computed.min| ∧ |exact.max - computed.max| ≤ 4 / 2 ^ 53 * |computed.max|

/-- Intervals in order. -/
def Ordered (lo hi : ℝ) : List Interval → Prop
  | [] => lo ≤ hi
  | i :: l => lo ≤ i.min ∧ i.min ≤ i.max ∧ Ordered i.max hi l

/-! ### Lemmas -/

variable {f : ℝ → ℝ} {R : ℝ} {fuel : ℕ} {tMin tMax : ℝ}

/-- A list of times between which the function is alternatively increasing and decreasing. -/
def Zig (f : ℝ → ℝ) : Bool → List ℝ → Prop
  | true, s :: t :: l => s < t ∧ f s < f t ∧ MonotoneOn f (Set.Icc s t) ∧ Zig f false (t :: l)
  | false, s :: t :: l => s < t ∧ f t < f s ∧ AntitoneOn f (Set.Icc s t) ∧ Zig f true (t :: l)
  | _, _ => True

theorem near_self (x : ℝ) : |x - x| ≤ 4 / 2 ^ 53 * |x| := by rw [sub_self, abs_zero]; positivity

/-- The crossings are found. -/
def Crosses (f : ℝ → ℝ) (R : ℝ) (fuel : ℕ) (tMin tMax : ℝ) : Prop :=
  ∀ s t, tMin ≤ s → s ≤ t → t ≤ tMax → (f s - R) * (f t - R) ≤ 0 → ∃ r x, crossing f R fuel s t = .returned r ∧ s ≤ r ∧ r ≤ t ∧ s ≤ x ∧ x ≤ t ∧ f x = R ∧ |x - r| ≤ 4 / 2 ^ 53 * |r|

theorem zig_last_le {b : Bool} {s : ℝ} {l : List ℝ} (h : Zig f b (s :: l)) : ∀ m ∈ (s :: l).getLast?, s ≤ m := by
  induction l generalizing s b with
  | nil => intro m hm; simp at hm; exact hm.le
  | cons t l ih =>
    intro m hm
    rw [List.getLast?_cons_cons] at hm
    cases b with
    | true => exact h.1.le.trans (ih h.2.2.2 m hm)
    | false => exact h.1.le.trans (ih h.2.2.2 m hm)

theorem intervalMax_spec (hc : Crosses f R fuel tMin tMax) (n : ℕ) (p : ℝ) (l : List ℝ) (hn : l.length ≤ n) (hz : Zig f true (p :: l)) (hp : f p ≤ R) (hmin : tMin ≤ p)
    (hlast : (p :: l).getLast? = some tMax) :
    ∃ m m' rest, intervalMax f R fuel (p :: l) = .returned (m, rest) ∧ |m' - m| ≤ 4 / 2 ^ 53 * |m| ∧ p ≤ m ∧ p ≤ m' ∧ (∀ t, p ≤ t → t ≤ m' → f t ≤ R) ∧
      (rest = [] ∧ m = tMax ∧ m' = tMax ∨
        ∃ a l', rest = a :: l' ∧ l'.length < l.length ∧ Zig f false (a :: l') ∧ R < f a ∧ m ≤ a ∧ m' ≤ a ∧ (∀ t, m' ≤ t → t ≤ a → R ≤ f t) ∧ (a :: l').getLast? = some tMax ∧ p < a) := by
  classical
  induction n using Nat.strong_induction_on generalizing p l with
  | _ n ih =>
    match l, hn, hz, hlast with
    | [], _, _, hlast =>
      simp at hlast
      subst hlast
      exact ⟨p, p, [], rfl, near_self p, le_rfl, le_rfl, fun t h1 h2 => by rw [le_antisymm h2 h1]; exact hp, .inl ⟨rfl, rfl, rfl⟩⟩
    | a :: l, hn, hz, hlast =>
      obtain ⟨hpa, hfa, hmono, hz'⟩ := hz
      rw [List.getLast?_cons_cons] at hlast
      have hamax : a ≤ tMax := zig_last_le hz' tMax hlast
      rw [intervalMax.eq_def]
      simp only
      rw [if_neg (not_not.2 hpa.le)]
      by_cases hR : f a > R
      · rw [if_pos hR]
        obtain ⟨r, x, e, r1, r2, x1, x2, x3, x4⟩ := hc p a hmin hpa.le hamax (by nlinarith)
        rw [e]
        refine ⟨r, x, a :: l, rfl, x4, r1, x1, fun t h1 h2 => ?_, .inr ⟨a, l, rfl, by simp, hz', hR, r2, x2, fun t h1 h2 => ?_, hlast, hpa⟩⟩
        · rw [← x3]; exact hmono ⟨h1, h2.trans x2⟩ ⟨x1, x2⟩ h2
        · rw [← x3]; exact hmono ⟨x1, x2⟩ ⟨x1.trans h1, h2⟩ h1
      · rw [if_neg hR]
        push Not at hR
        have before : ∀ t, p ≤ t → t ≤ a → f t ≤ R := fun t h1 h2 => (hmono ⟨h1, h2⟩ ⟨hpa.le, le_rfl⟩ h2).trans hR
        match l, hn, hz', hlast with
        | [], _, _, hlast =>
          simp at hlast
          subst hlast
          exact ⟨a, a, [], rfl, near_self a, hpa.le, hpa.le, before, .inl ⟨rfl, rfl, rfl⟩⟩
        | q :: l, hn, hz', hlast =>
          obtain ⟨haq, hfq, hanti, hz''⟩ := hz'
          rw [List.getLast?_cons_cons] at hlast
          simp only [List.length_cons] at hn
          obtain ⟨m, m', rest, e, e1, e2, e3, e4, e5⟩ := ih (n - 1) (by omega) q l (by omega) hz'' (by linarith) (by linarith) hlast
          refine ⟨m, m', rest, e, e1, by linarith, by linarith, fun t h1 h2 => ?_, ?_⟩
          · rcases le_total t a with h | h
            · exact before t h1 h
            · rcases le_total t q with h' | h'
              · exact (hanti ⟨le_rfl, haq.le⟩ ⟨h, h'⟩ h).trans hR
              · exact e4 t h' h2
          · rcases e5 with h | ⟨b, l', h1, h2, h3, h4, h5, h6, h7, h8, h9⟩
            · exact .inl h
            · exact .inr ⟨b, l', h1, by simp only [List.length_cons]; omega, h3, h4, h5, h6, h7, h8, by linarith⟩

/-- What the loop adds. -/
def LoopSpec (f : ℝ → ℝ) (R tMax start : ℝ) (new : List Interval) : Prop :=
  ∃ exact, List.Forall₂ Near new exact ∧ (∀ t, start ≤ t → t ≤ tMax → f t < R → ∃ J ∈ exact, J.min ≤ t ∧ t ≤ J.max) ∧
    (∀ J ∈ exact, start ≤ J.min ∧ J.max ≤ tMax ∧ ∀ t, J.min ≤ t → t ≤ J.max → f t ≤ R) ∧ Ordered start tMax new

theorem LoopSpec.mono {start start' : ℝ} {new : List Interval} (h : LoopSpec f R tMax start' new) (hs : start ≤ start') (hR : ∀ t, start ≤ t → t ≤ start' → R ≤ f t) : LoopSpec f R tMax start new := by
  obtain ⟨exact, e1, e2, e3, e4⟩ := h
  refine ⟨exact, e1, fun t h1 h2 h3 => ?_, fun J hJ => ⟨hs.trans (e3 J hJ).1, (e3 J hJ).2⟩, ?_⟩
  · rcases le_total start' t with h | h
    · exact e2 t h h2 h3
    · exact absurd (hR t h1 h) (not_le.2 h3)
  · cases new with
    | nil => exact hs.trans e4
    | cons i l => exact ⟨hs.trans e4.1, e4.2⟩

theorem LoopSpec.cons {start mid m' : ℝ} {x : ℝ} {i : Interval} {new : List Interval} (h : LoopSpec f R tMax mid new) (hi : Near i ⟨x, m'⟩) (h1 : start ≤ i.min) (h2 : i.min ≤ i.max) (h3 : i.max ≤ mid)
    (x1 : start ≤ x) (m1 : m' ≤ mid) (m2 : mid ≤ tMax) (before : ∀ t, start ≤ t → t < x → R ≤ f t) (inside : ∀ t, x ≤ t → t ≤ m' → f t ≤ R) (after : ∀ t, m' ≤ t → t ≤ mid → R ≤ f t) (xm : x ≤ m') :
    LoopSpec f R tMax start (i :: new) := by
  obtain ⟨exact, e1, e2, e3, e4⟩ := h
  refine ⟨⟨x, m'⟩ :: exact, .cons hi e1, fun t t1 t2 t3 => ?_, fun J hJ => ?_, h1, h2, ?_⟩
  · rcases lt_or_ge t x with h | h
    · exact absurd (before t t1 h) (not_le.2 t3)
    · rcases le_total t m' with h' | h'
      · exact ⟨_, List.mem_cons_self .., h, h'⟩
      · rcases le_total t mid with h'' | h''
        · exact absurd (after t h' h'') (not_le.2 t3)
        · obtain ⟨J, hJ, hJ'⟩ := e2 t h'' t2 t3
          exact ⟨J, List.mem_cons_of_mem _ hJ, hJ'⟩
  · rcases List.mem_cons.1 hJ with rfl | hJ
    · exact ⟨x1, m1.trans m2, inside⟩
    · obtain ⟨a, b⟩ := e3 J hJ
      exact ⟨by show start ≤ J.min; linarith, b⟩
  · cases new with
    | nil => exact h3.trans e4
    | cons j l => exact ⟨h3.trans e4.1, e4.2⟩

/-- The common part of the two cases: the interval that contains a periapsis below the radius. -/
theorem below_spec (hc : Crosses f R fuel tMin tMax) (n : ℕ) (previous : Option ℝ) (p : ℝ) (l : List ℝ) (ivs : List Interval) (hz : Zig f true (p :: l)) (hmin : tMin ≤ p)
    (hlast : (p :: l).getLast? = some tMax) (hp : f p < R) (start mn x : ℝ) (hmn : intervalMin f R fuel tMin previous p = .returned mn) (hx : |x - mn| ≤ 4 / 2 ^ 53 * |mn|) (s1 : start ≤ mn) (s2 : mn ≤ p)
    (s3 : start ≤ x) (s4 : x ≤ p) (before : ∀ t, start ≤ t → t < x → R ≤ f t) (inside : ∀ t, x ≤ t → t ≤ p → f t ≤ R)
    (ih : ∀ a l' ivs, l'.length < l.length → Zig f false (a :: l') → R < f a → tMin ≤ a → (a :: l').getLast? = some tMax →
      ∃ new, intervalsLoop f R fuel tMin n (some a) l' ivs = .returned (ivs ++ new) ∧ LoopSpec f R tMax a new) :
    ∃ new, intervalsLoop f R fuel tMin (n + 1) previous (p :: l) ivs = .returned (ivs ++ new) ∧ LoopSpec f R tMax start new := by
  classical
  obtain ⟨m, m', rest, e, e1, e2, e3, e4, e5⟩ := intervalMax_spec hc l.length p l le_rfl hz hp.le hmin hlast
  rw [intervalsLoop.eq_def]
  simp only
  rw [if_pos hp, hmn]
  simp only [Outcome.bind, e]
  have inside' : ∀ t, x ≤ t → t ≤ m' → f t ≤ R := fun t h1 h2 => by
    rcases le_total t p with h | h
    · exact inside t h1 h
    · exact e4 t h h2
  rcases e5 with ⟨rfl, em, em'⟩ | ⟨a, l', rfl, h2, h3, h4, h5, h6, h7, h8, h9⟩
  · subst em' em
    refine ⟨[⟨mn, _⟩], rfl, ?_⟩
    refine ⟨[⟨x, _⟩], .cons ⟨hx, e1⟩ .nil, fun t h1 h2 h3 => ?_, fun J hJ => ?_, s1, s2.trans e2, le_rfl⟩
    · rcases lt_or_ge t x with h | h
      · exact absurd (before t h1 h) (not_le.2 h3)
      · exact ⟨_, List.mem_singleton_self _, h, h2⟩
    · rw [List.mem_singleton] at hJ
      subst hJ
      exact ⟨s3, le_rfl, inside'⟩
  · obtain ⟨new, n1, n2⟩ := ih a l' (ivs ++ [⟨mn, m⟩]) h2 h3 h4 (by linarith) h8
    refine ⟨⟨mn, m⟩ :: new, n1.trans (by simp), ?_⟩
    exact n2.cons ⟨hx, e1⟩ s1 (by show mn ≤ m; linarith) h5 s3 h6 (zig_last_le h3 tMax h8) before inside' h7 (by linarith)

/-- The loop, after an apoapsis. -/
theorem intervalsLoop_spec (hc : Crosses f R fuel tMin tMax) (n : ℕ) (a : ℝ) (l : List ℝ) (ivs : List Interval) (hn : l.length ≤ n) (hz : Zig f false (a :: l)) (ha : R < f a ∨ a = tMin ∧ l ≠ []) (hmin : tMin ≤ a)
    (hlast : (a :: l).getLast? = some tMax) :
    ∃ new, intervalsLoop f R fuel tMin n (some a) l ivs = .returned (ivs ++ new) ∧ LoopSpec f R tMax a new := by
  classical
  induction n using Nat.strong_induction_on generalizing a l ivs with
  | _ n ih =>
    match l, hn, hz, hlast with
    | [], _, _, hlast =>
      simp at hlast
      subst hlast
      have ha' : R < f a := by rcases ha with h | h; exacts [h, absurd rfl h.2]
      refine ⟨[], by rw [intervalsLoop.eq_def]; simp, [], .nil, fun t h1 h2 h3 => ?_, by simp, le_rfl⟩
      rw [le_antisymm h2 h1] at h3
      linarith
    | p :: l, hn, hz, hlast =>
      obtain ⟨hap, hfp, hanti, hz'⟩ := hz
      rw [List.getLast?_cons_cons] at hlast
      simp only [List.length_cons] at hn
      obtain ⟨n, rfl⟩ : ∃ k, n = k + 1 := ⟨n - 1, by omega⟩
      have hpmax : p ≤ tMax := zig_last_le hz' tMax hlast
      by_cases hp : f p < R
      · have key : ∃ mn x, intervalMin f R fuel tMin (some a) p = .returned mn ∧ |x - mn| ≤ 4 / 2 ^ 53 * |mn| ∧ a ≤ mn ∧ mn ≤ p ∧ a ≤ x ∧ x ≤ p ∧ (∀ t, a ≤ t → t < x → R ≤ f t) ∧ (∀ t, x ≤ t → t ≤ p → f t ≤ R) := by
          unfold intervalMin
          simp only
          by_cases hR : f a > R
          · obtain ⟨r, x, e, r1, r2, x1, x2, x3, x4⟩ := hc a p hmin hap.le hpmax (by nlinarith)
            refine ⟨r, x, ?_, x4, r1, r2, x1, x2, fun t h1 h2 => ?_, fun t h1 h2 => ?_⟩
            · rw [if_neg (not_not.2 hap.le), if_pos hR]; exact e
            · rw [← x3]; exact hanti ⟨h1, h2.le.trans x2⟩ ⟨x1, x2⟩ h2.le
            · rw [← x3]; exact hanti ⟨x1, x2⟩ ⟨x1.trans h1, h2⟩ h1
          · have hat : a = tMin := by rcases ha with h | h; exacts [absurd h hR, h.1]
            refine ⟨a, a, ?_, near_self a, le_rfl, hap.le, le_rfl, hap.le, fun t h1 h2 => by linarith, fun t h1 h2 => ?_⟩
            · rw [if_neg (not_not.2 hap.le), if_neg hR, if_pos hat]
            · exact (hanti ⟨le_rfl, hap.le⟩ ⟨h1, h2⟩ h1).trans (not_lt.1 hR)
        obtain ⟨mn, x, k1, k2, k3, k4, k5, k6, k7, k8⟩ := key
        refine below_spec hc n (some a) p l ivs hz' (by linarith) hlast hp a mn x k1 k2 k3 k4 k5 k6 k7 k8 fun b l' ivs' h1 h2 h3 h4 h5 => ?_
        exact ih n (by omega) b l' ivs' (by omega) h2 (.inl h3) h4 h5
      · rw [intervalsLoop.eq_def]
        simp only
        rw [if_neg hp]
        push Not at hp
        have before : ∀ t, a ≤ t → t ≤ p → R ≤ f t := fun t h1 h2 => hp.trans (hanti ⟨h1, h2⟩ ⟨hap.le, le_rfl⟩ h2)
        match l, hn, hz', hlast with
        | [], _, _, hlast =>
          simp at hlast
          subst hlast
          exact ⟨[], by simp, [], .nil, fun t h1 h2 h3 => absurd (before t h1 h2) (not_le.2 h3), by simp, hap.le⟩
        | b :: l, hn, hz', hlast =>
          obtain ⟨hpb, hfb, hmono, hz''⟩ := hz'
          rw [List.getLast?_cons_cons] at hlast
          simp only [List.length_cons] at hn
          obtain ⟨new, n1, n2⟩ := ih n (by omega) b l ivs (by omega) hz'' (.inl (by linarith)) (by linarith) hlast
          refine ⟨new, n1, n2.mono (by linarith) fun t h1 h2 => ?_⟩
          rcases le_total t p with h | h
          · exact before t h1 h
          · exact hp.trans (hmono ⟨le_rfl, hpb.le⟩ ⟨h, h2⟩ h)

/-- The loop, when it starts with a periapsis. -/
theorem intervalsLoop_first (hc : Crosses f R fuel tMin tMax) (q : ℝ) (l : List ℝ) (hz : Zig f true (tMin :: q :: l)) (hlast : (tMin :: q :: l).getLast? = some tMax) :
    ∃ new, intervalsLoop f R fuel tMin (l.length + 2) none (tMin :: q :: l) [] = .returned new ∧ LoopSpec f R tMax tMin new := by
  classical
  by_cases hp : f tMin < R
  · obtain ⟨new, n1, n2⟩ := below_spec hc (l.length + 1) none tMin (q :: l) [] hz le_rfl hlast hp tMin tMin tMin (by unfold intervalMin; exact if_pos rfl) (near_self _) le_rfl le_rfl le_rfl le_rfl (fun t h1 h2 => by linarith)
      (fun t h1 h2 => by rw [le_antisymm h2 h1]; exact hp.le) fun b l' ivs h1 h2 h3 h4 h5 => intervalsLoop_spec hc _ b l' ivs (by simp only [List.length_cons] at h1; omega) h2 (.inl h3) h4 h5
    exact ⟨new, by rw [n1]; simp, n2⟩
  · rw [intervalsLoop.eq_def]
    simp only
    rw [if_neg hp]
    push Not at hp
    obtain ⟨h1, h2, h3, h4⟩ := hz
    rw [List.getLast?_cons_cons] at hlast
    obtain ⟨new, n1, n2⟩ := intervalsLoop_spec hc (l.length + 1) q l [] (by omega) h4 (.inl (by linarith)) h1.le hlast
    exact ⟨new, by simpa using n1, n2.mono h1.le fun t t1 t2 => hp.trans (h3 ⟨le_rfl, h1.le⟩ ⟨t1, t2⟩ t1)⟩

theorem alternates_zig (b : Bool) (l : List ℝ) (h : Zig f b l) (up down : Bool) (hu : b = true → up = false) (hd : b = false → down = false) : alternates f up down l = true := by
  classical
  induction l generalizing b up down with
  | nil => rfl
  | cons s l ih =>
    match l, h, ih with
    | [], _, _ => rfl
    | t :: l, h, ih =>
      rw [alternates]
      cases b with
      | true =>
        obtain ⟨h1, h2, h3, h4⟩ := h
        rw [if_pos h2, hu rfl, if_neg (by simp)]
        exact ih false h4 true false (by simp) (by simp)
      | false =>
        obtain ⟨h1, h2, h3, h4⟩ := h
        rw [if_neg (not_lt.2 h2.le), if_pos h2, hd rfl, if_neg (by simp)]
        exact ih true h4 false true (by simp) (by simp)

theorem zig_of_apsides {S : Set ℝ} (hS : AreApsides f S) (l pre : List ℝ) (hp : (pre ++ l).Pairwise (· < ·)) (hm : ∀ x, x ∈ S ↔ x ∈ pre ++ l) (b : Bool)
    (hb : ∀ s t l', l = s :: t :: l' → (f s < f t ↔ b = true)) : Zig f b l := by
  have cons : ∀ (pre : List ℝ) (s t : ℝ) (l : List ℝ), (pre ++ s :: t :: l).Pairwise (· < ·) → (∀ x, x ∈ S ↔ x ∈ pre ++ s :: t :: l) → Consecutive S s t := by
    intro pre s t l hp hm
    rw [List.pairwise_append, List.pairwise_cons, List.pairwise_cons] at hp
    refine ⟨(hm s).2 (by simp), (hm t).2 (by simp), hp.2.1.1 t (by simp), fun u hu => ?_⟩
    rcases List.mem_append.1 ((hm u).1 hu) with h | h
    · exact .inl (hp.2.2 u h s (by simp)).le
    · rcases List.mem_cons.1 h with rfl | h
      · exact .inl le_rfl
      · rcases List.mem_cons.1 h with rfl | h
        · exact .inr le_rfl
        · exact .inr (hp.2.1.2.1 u h).le
  induction l generalizing pre b with
  | nil => cases b <;> trivial
  | cons s l ih =>
    match l, hp, hm, hb, ih with
    | [], _, _, _, _ => cases b <;> trivial
    | t :: l, hp, hm, hb, ih =>
      have c := cons pre s t l hp hm
      have e : pre ++ s :: t :: l = (pre ++ [s]) ++ t :: l := by simp
      have hrec := ih (pre ++ [s]) (e ▸ hp) (fun x => e ▸ hm x) (!b) fun t' u l' h => by
        injection h with h1 h2
        subst h1 h2
        have c' := cons (pre ++ [s]) t u l' (e ▸ hp) (fun x => e ▸ hm x)
        have a := hS.alternate s t u c c'
        rw [hb s t _ rfl] at a
        have n := hS.ne t u c'
        cases b with
        | true => simp at a ⊢; exact a.le
        | false => simp at a ⊢; exact lt_of_le_of_ne a n
      have hmono := hS.monotone s t c
      have hne := hS.ne s t c
      have hst := c.2.2.1
      cases b with
      | true =>
        have h := (hb s t l rfl).2 rfl
        refine ⟨hst, h, ?_, hrec⟩
        rcases hmono with h' | h'
        · exact h'
        · exact absurd (h' ⟨le_rfl, hst.le⟩ ⟨hst.le, le_rfl⟩ hst.le) (not_le.2 h)
      | false =>
        have h : f t < f s := lt_of_le_of_ne (not_lt.1 fun h => by simpa using (hb s t l rfl).1 h) hne.symm
        refine ⟨hst, h, ?_, hrec⟩
        rcases hmono with h' | h'
        · exact absurd (h' ⟨le_rfl, hst.le⟩ ⟨hst.le, le_rfl⟩ hst.le) (not_le.2 h)
        · exact h'

theorem ordered_consistent {lo hi : ℝ} {l : List Interval} (h : Ordered lo hi l) : consistent l = true := by
  induction l generalizing lo with
  | nil => rfl
  | cons i l ih =>
    cases l with
    | nil => rfl
    | cons j l =>
      obtain ⟨h1, h2, h3⟩ := h
      have := ih h3
      obtain ⟨h4, h5, h6⟩ := h3
      simp [consistent, h4, h5, this]

/-- **C64, the algorithm.** -/
theorem computeCollisionIntervals_spec (hc : Crosses f R fuel tMin tMax) (ht : tMin < tMax) (apo peri : Finset ℝ) (hr : ∀ t, t ∈ apo ∨ t ∈ peri → tMin ≤ t ∧ t ≤ tMax)
    (hS : AreApsides f {t | t = tMin ∨ t = tMax ∨ t ∈ apo ∨ t ∈ peri}) :
    ∃ intervals, computeCollisionIntervals f R fuel tMin tMax apo peri = .returned intervals ∧ LoopSpec f R tMax tMin intervals := by
  classical
  unfold computeCollisionIntervals
  obtain ⟨ts, hts⟩ : ∃ ts, ts = apsidesTimes tMin tMax apo peri := ⟨_, rfl⟩
  have hp : ts.Pairwise (· < ·) := by rw [hts]; exact Finset.sortedLT_sort _ |>.pairwise
  have hm : ∀ x, x ∈ ts ↔ x = tMin ∨ x = tMax ∨ x ∈ apo ∨ x ∈ peri := by rw [hts]; intro x; simp [apsidesTimes]
  rw [← hts]
  clear hts
  have hle : ∀ x ∈ ts, tMin ≤ x ∧ x ≤ tMax := by
    intro x hx
    rcases (hm x).1 hx with rfl | rfl | h
    · exact ⟨le_rfl, ht.le⟩
    · exact ⟨ht.le, le_rfl⟩
    · exact hr x h
  have hlast : ts.getLast? = some tMax := by
    obtain ⟨pre, e⟩ : ∃ pre post, ts = pre ++ tMax :: post := List.append_of_mem ((hm tMax).2 (by simp))
    obtain ⟨post, e⟩ := e
    cases post with
    | nil => rw [e]; simp
    | cons u post =>
      rw [e, List.pairwise_append, List.pairwise_cons] at hp
      exact absurd ((hle u (by rw [e]; simp)).2) (not_le.2 (hp.2.1.1 u (by simp)))
  match ts, hp, hm, hle, hlast with
  | [], _, hm, _, _ => simpa using (hm tMin).2 (by simp)
  | [x], _, hm, _, _ =>
    have h1 := (hm tMin).2 (by simp)
    have h2 := (hm tMax).2 (by simp)
    simp at h1 h2
    linarith
  | s :: q :: l, hp, hm, hle, hlast =>
    have hs : s = tMin := by
      rcases List.mem_cons.1 ((hm tMin).2 (by simp)) with h | h
      · exact h.symm
      · have := (List.pairwise_cons.1 hp).1 tMin h
        linarith [(hle s (by simp)).1]
    subst hs
    have hz : ∀ b, (f s < f q ↔ b = true) → Zig f b (s :: q :: l) := fun b hb =>
      zig_of_apsides hS (s :: q :: l) [] hp (fun x => by rw [List.nil_append, hm]; rfl) b fun s' t' l' e => by
        injection e with e1 e2
        injection e2 with e2 e3
        rw [← e1, ← e2]; exact hb
    simp only
    by_cases h : f s < f q
    · have z := hz true (by simp [h])
      rw [if_pos (alternates_zig true _ z false false (by simp) (by simp)), if_pos h]
      obtain ⟨new, n1, n2⟩ := intervalsLoop_first hc q l z hlast
      refine ⟨new, ?_, n2⟩
      simp only [List.length_cons]
      rw [n1]
      simp only [Outcome.bind]
      obtain ⟨_, _, _, _, o⟩ := n2
      rw [if_pos (ordered_consistent o)]
    · have z := hz false (by simp [not_lt.1 h])
      rw [if_pos (alternates_zig false _ z false false (by simp) (by simp)), if_neg h]
      obtain ⟨new, n1, n2⟩ := intervalsLoop_spec (R := R) hc (q :: l).length s (q :: l) [] le_rfl z (.inr ⟨rfl, by simp⟩) le_rfl hlast
      refine ⟨new, ?_, n2⟩
      simp only at n1 ⊢
      rw [n1]
      simp only [Outcome.bind, List.nil_append]
      obtain ⟨_, _, _, _, o⟩ := n2
      rw [if_pos (ordered_consistent o)]

/-- **C64, the collision intervals.** If the times are those of the apsides, a number of iterations of the bisection that only depends on the range of time is sufficient, no check fails, and the intervals are in order
and are within the range of time.  Up to the tolerance of the bisection at their bounds, they are the set of the times where the trajectory is at less than the maximal radius: they contain all of them, and the trajectory is nowhere above
the radius in an interval. -/
theorem C64_collision_intervals (distance2 : ℝ → ℝ) (radius2 tMin tMax : ℝ) (apoapsides periapsides : Finset ℝ) (ht : tMin < tMax) (h0 : 0 < tMin ∨ tMax < 0) (hcont : ContinuousOn distance2 (Set.Icc tMin tMax))
    (hr : ∀ t, t ∈ apoapsides ∨ t ∈ periapsides → tMin ≤ t ∧ t ≤ tMax) (hS : AreApsides distance2 {t | t = tMin ∨ t = tMax ∨ t ∈ apoapsides ∨ t ∈ periapsides}) (K : ℕ)
    (hK : tMax - tMin < 2 / 2 ^ 53 * min |tMin| |tMax| * 2 ^ K) (fuel : ℕ) (hfuel : 2 * (K + 1) ^ 2 ≤ fuel) :
    ∃ intervals, computeCollisionIntervals distance2 radius2 fuel tMin tMax apoapsides periapsides = .returned intervals ∧ Ordered tMin tMax intervals ∧
      ∃ exact, List.Forall₂ Near intervals exact ∧
        (∀ t, tMin ≤ t → t ≤ tMax → distance2 t < radius2 → ∃ J ∈ exact, J.min ≤ t ∧ t ≤ J.max) ∧
        (∀ J ∈ exact, tMin ≤ J.min ∧ J.max ≤ tMax ∧ ∀ t, J.min ≤ t → t ≤ J.max → distance2 t ≤ radius2) := by
  have hc : Crosses distance2 radius2 fuel tMin tMax := by
    intro s t h1 h2 h3 h4
    have hcont' : ContinuousOn (fun t => distance2 t - radius2) (Set.Icc s t) := (hcont.mono (Set.Icc_subset_Icc h1 h3)).sub continuousOn_const
    have hmin : min |tMin| |tMax| ≤ min |s| |t| := by
      rcases h0 with h | h
      · rw [abs_of_pos h, abs_of_pos (h.trans ht), abs_of_pos (by linarith), abs_of_pos (by linarith), min_eq_left ht.le, min_eq_left h2]; exact h1
      · rw [abs_of_neg h, abs_of_neg (ht.trans h), abs_of_neg (by linarith), abs_of_neg (by linarith), min_eq_right (by linarith), min_eq_right (by linarith)]; linarith
    obtain ⟨r, e⟩ := C41_brent_terminates (fun t => distance2 t - radius2) s t h2 (by rcases h0 with h | h; exacts [.inl (by linarith), .inr (by linarith)]) h4 K
      (by
        have : 2 / 2 ^ 53 * min |tMin| |tMax| * 2 ^ K ≤ 2 / 2 ^ 53 * min |s| |t| * 2 ^ K := by gcongr
        linarith) fuel hfuel
    obtain ⟨r1, r2, x, x1, x2, x3, x4⟩ := C41_brent _ fuel s t h2 hcont' r e
    exact ⟨r, x, e, r1, r2, x1, x2, by linarith [x3], x4⟩
  obtain ⟨intervals, e, exact, e1, e2, e3, e4⟩ := computeCollisionIntervals_spec hc ht apoapsides periapsides hr hS
  exact ⟨intervals, e, e4, exact, e1, e2, e3⟩

/-- The trajectory comes down to the centre at 3 and goes up again: the hypotheses of the theorem hold, and there is an interval that contains the time of the periapsis, up to the tolerance. -/
example : ∃ intervals, computeCollisionIntervals (fun t => (t - 3) ^ 2) (1 / 4) (2 * (54 + 1) ^ 2) 1 4 ∅ {3} = .returned intervals ∧ ∃ I ∈ intervals, I.min ≤ 3 + 4 / 2 ^ 53 * |I.min| ∧ 3 ≤ I.max + 4 / 2 ^ 53 * |I.max| := by
  have mem : ∀ x : ℝ, x ∈ {t : ℝ | t = 1 ∨ t = 4 ∨ t ∈ (∅ : Finset ℝ) ∨ t ∈ ({3} : Finset ℝ)} ↔ x = 1 ∨ x = 4 ∨ x = 3 := by intro x; simp
  have cons : ∀ s t, Consecutive {t : ℝ | t = 1 ∨ t = 4 ∨ t ∈ (∅ : Finset ℝ) ∨ t ∈ ({3} : Finset ℝ)} s t → s = 1 ∧ t = 3 ∨ s = 3 ∧ t = 4 := by
    intro s t ⟨h1, h2, h3, h4⟩
    rw [mem] at h1 h2
    have h5 := h4 3 ((mem 3).2 (by simp))
    rcases h1 with rfl | rfl | rfl <;> rcases h2 with rfl | rfl | rfl <;> first | (norm_num at h3; done) | (norm_num at h5; done) | norm_num
  obtain ⟨intervals, e, -, exact, e1, e2, e3⟩ := C64_collision_intervals (fun t => (t - 3) ^ 2) (1 / 4) 1 4 ∅ {3} (by norm_num) (.inl (by norm_num)) (by fun_prop) (by intro t h; simp at h; subst h; norm_num)
    ⟨fun s t h => by
      rcases cons s t h with ⟨rfl, rfl⟩ | ⟨rfl, rfl⟩
      · exact .inr fun x hx y hy hxy => by have := hx.2; have := hy.2; show (y - 3) ^ 2 ≤ (x - 3) ^ 2; nlinarith
      · exact .inl fun x hx y hy hxy => by have := hx.1; have := hy.1; show (x - 3) ^ 2 ≤ (y - 3) ^ 2; nlinarith,
     fun s t h => by rcases cons s t h with ⟨rfl, rfl⟩ | ⟨rfl, rfl⟩ <;> norm_num,
     fun s t u h h' => by
      rcases cons s t h with ⟨rfl, rfl⟩ | ⟨rfl, rfl⟩ <;> rcases cons _ u h' with ⟨h1, h2⟩ | ⟨h1, h2⟩ <;> first | (norm_num at h1; done) | (rw [h2]; norm_num)⟩
    54 (by norm_num) _ le_rfl
  refine ⟨intervals, e, ?_⟩
  obtain ⟨J, hJ, j1, j2⟩ := e2 3 (by norm_num) (by norm_num) (by norm_num)
  obtain ⟨i, hi, hi'⟩ := List.getElem_of_mem hJ
  have hl := e1.length_eq
  have hn := (List.forall₂_iff_get.1 e1).2 i (by omega) hi
  simp only [List.get_eq_getElem] at hn
  rw [hi'] at hn
  obtain ⟨n1, n2⟩ := hn
  refine ⟨intervals[i], List.getElem_mem _, ?_, ?_⟩
  · linarith [(abs_le.1 n1).1]
  · linarith [(abs_le.1 n2).2]

/-- **C64, anomalous apsides (counterexample to the unconditional property).** If two successive extrema are at the same distance, no interval is returned, although the trajectory may be below the maximal radius all the time:
here on a circular trajectory of radius 0 within a sphere of radius 1. -/
theorem C64_anomalous_counterexample (fuel : ℕ) : computeCollisionIntervals (fun _ => 0) 1 fuel 1 2 ∅ ∅ = .returned [] := by
  have e : apsidesTimes 1 2 ∅ ∅ = [1, 2] := by
    unfold apsidesTimes
    have : (insert (1 : ℝ) (insert 2 (∅ ∪ ∅ : Finset ℝ))) = ([1, 2] : List ℝ).toFinset := by ext x; simp
    rw [this]
    exact List.toFinset_sort (· ≤ ·) (by simp) |>.2 (by simp)
  unfold computeCollisionIntervals
  rw [e]
  simp [alternates]

end Principia.CollisionIntervals
