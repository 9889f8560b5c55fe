import Verif.Ksp.FlightPlanExamples

set_option linter.unusedSimpArgs false
set_option linter.unusedVariables false
set_option linter.unusedSectionVars false

/-!
Absence of failed checks in the operations on flight plans, C50.
-/

namespace Principia.FlightPlan

open Spec

variable {T M B X : Type} [LinearOrder T]

/-- The ephemeris goes beyond `τ` for the integrations of the segments starting with the `n`th. -/
def Available (env : Env T M B X) (τ : T) (n : Nat) : Prop := ∀ j, n ≤ j → ∀ u, u ≤ env.tMax j u ∨ τ < env.tMax j u

theorem Available.mono {env : Env T M B X} {τ : T} {n m : Nat} (h : Available env τ n) (hn : n ≤ m) : Available env τ m := fun j hj u => h j (hn.trans hj) u

theorem available_of_prolongs {env : Env T M B X} {t₀ τ : T} (h : Prolongs env t₀) (hτ : τ ≤ t₀) (n : Nat) : Available env τ n :=
  fun j _ u => (h.start j u).imp id fun hh => lt_of_le_of_lt hτ hh

/-- An integration doesn't fail any check. -/
theorem flow_some {env : Env T M B X} {t₀ : T} (hP : Prolongs env t₀) {i : Nat} {a : Acceleration M B X} {q : T × X} {t : T} (ht : q.1 ≤ t)
    (hA : Available env q.1 i) : ∃ pts s, flow env i a q t = some (pts, s) ∧ (s = .ok → Available env t (i + 1)) := by
  unfold flow
  by_cases he : q.1 = t
  · rw [if_pos he]
    exact ⟨_, _, rfl, fun _ => he ▸ hA.mono (by omega)⟩
  · rw [if_neg he]
    have hlt : q.1 < t := lt_of_le_of_ne ht he
    have hlt' : q.1 < env.tMax i t := by
      rcases hA i le_rfl t with h | h
      · exact lt_of_lt_of_le hlt h
      · exact h
    rw [if_neg (not_not.2 (lt_min hlt hlt'))]
    extract_lets r s
    by_cases hs : s ≠ .ok ∨ min t (env.tMax i t) = t
    · rw [if_pos hs]
      refine ⟨_, _, rfl, fun hok => ?_⟩
      have hmin : min t (env.tMax i t) = t := by
        rcases hs with h | h
        · exact absurd hok h
        · exact h
      have hle : t ≤ env.tMax i t := min_eq_left_iff.1 hmin
      intro j hj u
      exact (hP.step i j t u (by omega)).imp id fun h => lt_of_le_of_lt hle h
    · rw [if_neg hs]
      exact ⟨_, _, rfl, fun h => absurd h (by simp)⟩

theorem coastSegment_some {env : Env T M B X} {t₀ : T} (hP : Prolongs env t₀) {p : Plan T M B X} {q : T × X} {t : T} (hb : p.back = some q) (ht : q.1 ≤ t)
    (hA : Available env q.1 p.stack.length) : ∃ s p', coastSegment env t p = some (s, p') ∧ (s = .ok → Available env t (p.stack.length + 1)) := by
  unfold coastSegment
  obtain ⟨pts, s, h1, h2⟩ := flow_some (a := none) hP ht hA
  rw [hb, Option.bind_some, h1, Option.map_some]
  exact ⟨s, _, rfl, h2⟩

theorem request_some {p : Plan T M B X} {i : Nat} (h : i < p.analysers.length) (r : Request T X) : ∃ p', request p i r = some p' := by
  unfold request; rw [if_pos h]; exact ⟨_, rfl⟩

theorem coastPart_some {E : Engine T M B} {strict : Bool} {env : Env T M B X} (hI : Integrator env) {t₀ : T} (hP : Prolongs env t₀) {m : Manoeuvre M B X}
    {p : Plan T M B X} {o : Status} {q : T × X} (hC : Computing E strict p o) (han : p.manoeuvres.length < p.analysers.length) (hb : p.back = some q)
    (h0 : p.anomalous = 0 → q.1 ≤ initialTime E m ∧ Available env q.1 p.stack.length) :
    ∃ p₁ m₁ o₁, coastPart E env m p o = some (p₁, m₁, o₁) ∧ (p₁.anomalous = 0 → Available env (initialTime E m) (p.stack.length + 1)) := by
  obtain ⟨c, r, q', l, hst, hc, hq, hb', hl, hfr⟩ := back_of_flown hC.flown
  obtain rfl : q = q' := by rw [hb] at hb'; exact Option.some.inj hb'
  unfold coastPart
  simp only
  by_cases ha : p.anomalous = 0
  · obtain ⟨ht, hA⟩ := h0 ha
    obtain ⟨s, p', h1, h2⟩ := coastSegment_some hP hb ht hA
    unfold initialTime at h1
    rw [if_pos ha, h1, Option.bind_some]
    obtain ⟨c', rfl, k1, k2, k3, k4⟩ := coastSegment_spec hI hst hc h1
    obtain ⟨last, hlast⟩ : ∃ last, c'.getLast? = some last := by
      cases hl : c'.getLast? with
      | none => exact absurd (List.getLast?_eq_none_iff.1 hl) k1.1
      | some q => exact ⟨q, rfl⟩
    obtain ⟨f, hf⟩ : ∃ f, c'.head? = some f := ⟨l, k2.trans hl⟩
    have hreq : ∀ (p₂ : Plan T M B X), p₂.stack = c' :: r → p₂.manoeuvres = p.manoeuvres → p₂.analysers = p.analysers → ∃ p₃, requestCoast p₂ = some p₃ ∧
        p₃.anomalous = p₂.anomalous := by
      intro p₂ e1 e2 e3
      unfold requestCoast
      split
      · have hf2 : p₂.front = some f := by unfold Plan.front; rw [e1]; exact hf
        have hl2 : p₂.back = some last := by unfold Plan.back; rw [e1]; exact hlast
        rw [hf2, Option.bind_some, hl2, Option.bind_some]
        obtain ⟨p', hp'⟩ := request_some (p := p₂) (i := p₂.manoeuvres.length) (by rw [e2, e3]; exact han) ⟨f, last.1, some p₂.desiredFinalTime⟩
        exact ⟨p', hp', by rw [(request_spec hp').2]⟩
      · exact ⟨_, rfl, rfl⟩
    by_cases hs : s = .ok
    · subst hs
      simp only [if_true, failIf_ok]
      have hset : ∃ m', setCoastingTrajectory E { m with dof := none } c' = some m' := by
        unfold setCoastingTrajectory
        have ht' : last.1 = E.initialTime m.mass m.burn := by have := k3 rfl; rw [hlast] at this; simpa using this
        have := find_last k1 hlast
        rw [ht'] at this
        rw [this]
        exact ⟨_, rfl⟩
      obtain ⟨m', hm'⟩ := hset
      obtain ⟨p₃, hp3, _⟩ := hreq { p with stack := c' :: r } rfl rfl rfl
      rw [List.head?_cons, Option.bind_some, hm', Option.bind_some, hp3]
      exact ⟨_, _, _, rfl, fun _ => h2 rfl⟩
    · simp only [if_neg hs]
      rw [Option.bind_some, failIf_ne _ _ hs]
      obtain ⟨p₃, hp3, hp4⟩ := hreq { p with stack := c' :: r, anomalous := 1, status := s } rfl rfl rfl
      rw [hp3]
      refine ⟨_, _, _, rfl, fun hh => ?_⟩
      rw [hp4] at hh
      simp at hh
  · rw [if_neg ha]
    exact ⟨_, _, _, rfl, fun hh => absurd hh ha⟩

theorem addLastSegment_some {p : Plan T M B X} {q : T × X} (hb : p.back = some q) :
    addLastSegment p = some { p with stack := [q] :: p.stack, anomalous := if 0 < p.anomalous then p.anomalous + 1 else p.anomalous } := by
  unfold addLastSegment; rw [hb]; rfl

theorem computeLoop_some {E : Engine T M B} {strict : Bool} {env : Env T M B X} (hI : Integrator env) {t₀ : T} (hP : Prolongs env t₀)
    {ms : List (Manoeuvre M B X)} {p : Plan T M B X} {o : Status} {q : T × X} (hC : Computing E strict p o)
    (han : p.manoeuvres.length + ms.length < p.analysers.length) (hb : p.back = some q)
    (h0 : p.anomalous = 0 → Ordered E q.1 (ms.map Manoeuvre.key) ∧ Available env q.1 p.stack.length) :
    ∃ p' o' q', computeLoop E env ms p o = some (p', o') ∧ p'.back = some q' ∧ (p'.anomalous = 0 → Available env q'.1 p'.stack.length) := by
  induction ms generalizing p o q with
  | nil => exact ⟨p, o, q, rfl, hb, fun ha => (h0 ha).2⟩
  | cons m ms ih =>
    rw [List.length_cons] at han
    obtain ⟨p1, m1, o1, hc, hav⟩ := coastPart_some (m := m) hI hP hC (by omega) hb (fun ha => ⟨(h0 ha).1.1, (h0 ha).2⟩)
    obtain ⟨a1, a2, a3, a4, a5, a6, ⟨top, top', rr, e1, e2, e3⟩, a7, a8, _, _⟩ := coastPart_spec hI hC hc
    have hlen1 : p1.stack.length = p.stack.length := by rw [e1, e2]; rfl
    have a7' : p1.anomalous = 0 → ∃ x, m1.dof = some x ∧ p1.back = some (initialTime E m1, x) := by
      intro hz
      have := a7 hz
      unfold initialTime at this ⊢
      rwa [a5, a6]
    obtain ⟨c, r, q1, l, hst, hcp, hq, hb1, hl, hfr⟩ := back_of_flown a1.flown
    have k1 := addLastSegment_some hb1
    have hkey : initialTime E m1 = initialTime E m ∧ finalTime E m1 = finalTime E m := by
      unfold initialTime finalTime; rw [a5, a6]; exact ⟨rfl, rfl⟩
    -- The burn.
    have k2 : ∃ p2 o2 q2, burnPart E env m1 { p1 with stack := [q1] :: p1.stack, anomalous := if 0 < p1.anomalous then p1.anomalous + 1 else p1.anomalous } o1
        = some (p2, o2) ∧ p2.back = some q2 ∧ p2.stack.length = p1.stack.length + 1 ∧
        (p2.anomalous = 0 → p1.anomalous = 0 ∧ q2.1 = finalTime E m ∧ Available env q2.1 (p1.stack.length + 2)) := by
      unfold burnPart
      by_cases ha : p1.anomalous = 0
      · have ha0 : p.anomalous = 0 := by
          by_contra hne
          have := (coastPart_spec hI hC hc).2.2.2.2.2.2.2.2.2.1 hne
          rw [this] at ha
          exact hne ha
        have hav' := hav ha
        obtain ⟨x, hx1, hx2⟩ := a7' ha
        have hq1 : q1 = (initialTime E m1, x) := by rw [hb1] at hx2; exact Option.some.inj hx2
        have hq1' : q1.1 = initialTime E m := by rw [hq1]; exact hkey.1
        have hord := (h0 ha0).1
        have hif : initialTime E m ≤ finalTime E m := hord.2.1
        simp only [ha, lt_irrefl, if_false, if_true]
        by_cases hlt : initialTime E m < finalTime E m
        · have hfl := flow_some (i := ([q1] :: p1.stack).length) (a := some m1) (q := q1) (t := finalTime E m) hP (by rw [hq1']; exact hif) (by
            rw [hq1', List.length_cons, hlen1]; exact hav')
          obtain ⟨pts, s, hf, hs⟩ := hfl
          have hbs : burnSegment E env m1 { p1 with stack := [q1] :: p1.stack, anomalous := 0 } =
              some (s, ({ p1 with stack := [q1] :: p1.stack, anomalous := 0 } : Plan T M B X).append pts) := by
            unfold burnSegment
            have e1 : E.initialTime m1.mass m1.burn < E.finalTime m1.mass m1.burn := by
              have := hlt; rw [← hkey.1, ← hkey.2] at this; exact this
            rw [if_pos e1, if_neg (by rw [hx1]; simp)]
            have hback : ({ p1 with stack := [q1] :: p1.stack, anomalous := 0 } : Plan T M B X).back = some q1 := rfl
            rw [hback, Option.bind_some]
            have hf' : flow env ({ p1 with stack := [q1] :: p1.stack, anomalous := 0 } : Plan T M B X).stack.length (some m1) q1 (E.finalTime m1.mass m1.burn) =
                some (pts, s) := by
              have h5 : E.finalTime m1.mass m1.burn = finalTime E m := hkey.2
              rw [h5]; exact hf
            rw [hf']
            rfl
          rw [hbs, Option.map_some]
          obtain ⟨f1, f2, f3, _⟩ := flow_spec hI hf
          have hpa := path_append (c := [q1]) ⟨by simp, by simp⟩ rfl f1
          obtain ⟨q2, hq2⟩ : ∃ q2, ([q1] ++ pts).getLast? = some q2 := by
            cases hl : ([q1] ++ pts).getLast? with
            | none => exact absurd (List.getLast?_eq_none_iff.1 hl) hpa.1.1
            | some q => exact ⟨q, rfl⟩
          refine ⟨_, _, q2, rfl, ?_, ?_, ?_⟩
          · unfold Plan.failIf; split <;> exact hq2
          · unfold Plan.failIf; split <;> rfl
          · by_cases hok : s = .ok
            · subst hok
              intro _
              refine ⟨trivial, ?_, ?_⟩
              · have := f2 rfl
                rw [show (q1 :: pts).getLast? = some q2 from hq2] at this
                simpa using this
              · have h6 : q2.1 = finalTime E m := by
                  have := f2 rfl
                  rw [show (q1 :: pts).getLast? = some q2 from hq2] at this
                  simpa using this
                rw [h6]
                exact hs rfl
            · rw [failIf_ne _ _ hok]
              intro hh
              simp at hh
        · have hbs : burnSegment E env m1 { p1 with stack := [q1] :: p1.stack, anomalous := 0 } =
              some (.ok, { p1 with stack := [q1] :: p1.stack, anomalous := 0 }) := by
            unfold burnSegment
            rw [if_neg]
            have := hlt; rw [← hkey.1, ← hkey.2] at this; exact this
          rw [hbs, Option.map_some]
          have heq : q1.1 = finalTime E m := by rw [hq1']; exact le_antisymm hif (not_lt.1 hlt)
          refine ⟨_, _, q1, rfl, rfl, rfl, fun _ => ⟨trivial, heq, ?_⟩⟩
          rw [hq1', hlen1]
          exact hav'.mono (by omega)
      · have hpos : 0 < p1.anomalous := Nat.pos_of_ne_zero ha
        rw [if_pos hpos, if_neg (by simp)]
        exact ⟨_, _, q1, rfl, rfl, rfl, fun hh => absurd hh (by simp)⟩
    obtain ⟨p2, o2, q2, k2, hb2, hlen2, hav2⟩ := k2
    have k3 := addLastSegment_some hb2
    obtain ⟨b1, b2, b3, b4, b5, ⟨bb, qq, b6⟩, b7, b8⟩ := burnPart_spec hI a1 a7' a8 k1 k2 k3
    unfold computeLoop
    rw [hc, Option.bind_some, k1, Option.bind_some, k2, Option.bind_some, k3, Option.bind_some]
    refine ih (q := q2) b1 ?_ rfl ?_
    · have e1 : p2.manoeuvres = p.manoeuvres := b3.trans a3
      have e2 : p2.analysers.length = p.analysers.length := b2.length.trans a2.length
      simp only [List.length_append, List.length_singleton, e1, e2]
      omega
    · intro hh
      have hz : p2.anomalous = 0 := by
        by_contra hne
        have : 0 < p2.anomalous := Nat.pos_of_ne_zero hne
        simp only [if_pos this] at hh
        omega
      obtain ⟨z1, z2, z3⟩ := hav2 hz
      have ha0 : p.anomalous = 0 := by
        by_contra hne
        have := (coastPart_spec hI hC hc).2.2.2.2.2.2.2.2.2.1 hne
        rw [this] at z1
        exact hne z1
      refine ⟨?_, ?_⟩
      · rw [z2]
        exact (h0 ha0).1.2.2
      · show Available env q2.1 ([q2] :: p2.stack).length
        rw [List.length_cons, hlen2]
        exact z3

theorem lastCoast_some {E : Engine T M B} {strict : Bool} {env : Env T M B X} {t₀ : T} (hP : Prolongs env t₀)
    {p : Plan T M B X} {o : Status} {q : T × X} (hC : Computing E strict p o) (hA : p.analysers.length = p.manoeuvres.length + 1) (hb : p.back = some q)
    (h0 : p.anomalous = 0 → Available env q.1 p.stack.length) : ∃ r, lastCoast env p o = some r := by
  obtain ⟨c, r, q', l, hst, hc, hq, hb', hl, hfr⟩ := back_of_flown hC.flown
  unfold lastCoast
  by_cases ha : p.anomalous = 0
  · rw [if_pos ha, hb, Option.bind_some]
    have hreq : ∃ an, requestLast { p with desiredFinalTime := max p.desiredFinalTime q.1 } =
        some { p with desiredFinalTime := max p.desiredFinalTime q.1, analysers := an } := by
      unfold requestLast
      split
      · have : ({ p with desiredFinalTime := max p.desiredFinalTime q.1 } : Plan T M B X).front = some l := hfr
        rw [this, Option.bind_some]
        unfold request
        rw [if_pos (by show p.analysers.length - 1 < p.analysers.length; omega)]
        exact ⟨_, rfl⟩
      · exact ⟨p.analysers, rfl⟩
    obtain ⟨an, han⟩ := hreq
    rw [han, Option.bind_some]
    obtain ⟨s, p', h1, _⟩ := coastSegment_some (p := { p with desiredFinalTime := max p.desiredFinalTime q.1, analysers := an }) (q := q)
      (t := max p.desiredFinalTime q.1) hP hb (le_max_right _ _) (h0 ha)
    rw [h1]
    exact ⟨_, rfl⟩
  · rw [if_neg ha]
    exact ⟨_, rfl⟩

theorem computeSegments_some {E : Engine T M B} {strict : Bool} {env : Env T M B X} (hI : Integrator env) {t₀ : T} (hP : Prolongs env t₀) {i : Nat}
    {p : Plan T M B X} {q : T × X} (hR : Ready E strict i p) (hb : p.back = some q)
    (h0 : p.anomalous = 0 → Ordered E q.1 ((p.manoeuvres.drop i).map Manoeuvre.key) ∧ q.1 ≤ t₀) : ∃ s p', computeSegments E env i p = some (s, p') := by
  unfold computeSegments
  have hne : p.stack ≠ [] := by
    obtain ⟨c, r, h, _⟩ := hR.flown.stack_ne
    rw [h]; simp
  rw [if_neg hne]
  simp only
  have key : ∀ (p₀ : Plan T M B X), p₀ = (if p.anomalous = 0 then { p with status := .ok } else p) →
      Computing E strict { p₀ with manoeuvres := p₀.manoeuvres.take i } p₀.status ∧ Same p p₀ ∧
        p₀.manoeuvres = p.manoeuvres ∧ p₀.stack = p.stack ∧ p₀.anomalous = p.anomalous := by
    intro p₀ he
    by_cases ha : p.anomalous = 0
    · rw [if_pos ha] at he
      subst he
      exact ⟨⟨hR.flown, fun _ => rfl, fun _ hh => absurd ha hh, by simp, rfl⟩, ⟨rfl, rfl, rfl, rfl, rfl⟩, rfl, rfl, rfl⟩
    · rw [if_neg ha] at he
      subst he
      exact ⟨⟨hR.flown, fun hh => absurd hh ha, hR.anomaly, hR.range, rfl⟩, Same.refl _, rfl, rfl, rfl⟩
  obtain ⟨k1, k2, k3, k4, k5⟩ := key _ rfl
  have hb' : ∀ p₀ : Plan T M B X, p₀.stack = p.stack → p₀.back = some q := fun p₀ h => by unfold Plan.back; rw [h]; exact hb
  have hcount : (List.take i p.manoeuvres).length + (List.drop i p.manoeuvres).length = p.manoeuvres.length := by
    rw [← List.length_append, List.take_append_drop]
  obtain ⟨p', o', q', h1, h2, h3⟩ := computeLoop_some (ms := (if p.anomalous = 0 then { p with status := .ok } else p).manoeuvres.drop i)
    (q := q) hI hP k1 (by
      show (List.take i _).length + (List.drop i _).length < _
      rw [k3, hcount]
      have : (if p.anomalous = 0 then { p with status := .ok } else p).analysers.length = p.analysers.length := k2.length
      show _ < (if p.anomalous = 0 then { p with status := .ok } else p).analysers.length
      rw [this, hR.analysers]; omega) (hb' _ k4) (by
      intro ha
      have ha' : p.anomalous = 0 := k5.symm.trans ha
      rw [k3]
      exact ⟨(h0 ha').1, available_of_prolongs hP (h0 ha').2 _⟩)
  rw [h1, Option.bind_some]
  obtain ⟨a1, a2, a3, a4⟩ := computeLoop_spec hI k1 h1
  have hlen : p'.analysers.length = p'.manoeuvres.length + 1 := by
    have e1 : p'.analysers.length = p.analysers.length := by
      rw [a2.length]; exact k2.length
    have e2 := congrArg List.length a4
    rw [List.length_map, List.length_map, List.take_append_drop, k3] at e2
    rw [e1, hR.analysers, e2]
  obtain ⟨r, hr⟩ := lastCoast_some hP a1 hlen h2 h3
  exact ⟨r.1, r.2, hr⟩

/-! ## The operations -/

/-- The end of the manœuvres. -/
def endOf (E : Engine T M B) (t : T) (l : List (M × B)) : T := (l.getLast?.map fun m => E.finalTime m.1 m.2).getD t

theorem ordered_append {E : Engine T M B} {t : T} {l₁ l₂ : List (M × B)} :
    Ordered E t (l₁ ++ l₂) ↔ Ordered E t l₁ ∧ Ordered E (endOf E t l₁) l₂ := by
  induction l₁ generalizing t with
  | nil => simp [Ordered, endOf]
  | cons m l₁ ih =>
    show (_ ∧ _ ∧ Ordered E _ (l₁ ++ l₂)) ↔ (_ ∧ _ ∧ Ordered E _ l₁) ∧ _
    rw [ih]
    have : endOf E t (m :: l₁) = endOf E (E.finalTime m.1 m.2) l₁ := by
      unfold endOf
      cases l₁ with
      | nil => rfl
      | cons m' l => rw [List.getLast?_cons_cons]; simp [List.getLast?_cons]
    rw [this]
    constructor
    · rintro ⟨h1, h2, h3, h4⟩; exact ⟨⟨h1, h2, h3⟩, h4⟩
    · rintro ⟨⟨h1, h2, h3⟩, h4⟩; exact ⟨h1, h2, h3, h4⟩

theorem ordered_last {E : Engine T M B} {t : T} {l : List (M × B)} {m : M × B} (h : Ordered E t (l ++ [m])) : E.initialTime m.1 m.2 ≤ E.finalTime m.1 m.2 :=
  (ordered_append.1 h).2.2.1

/-- The first point of the last coast, if it is not after an anomaly. -/
theorem Flown.front_time {E : Engine T M B} {q₀ : T × X} {ms : List (Manoeuvre M B X)} {c : Segment T X} {st : List (Segment T X)} {a : Nat}
    (h : Flown E q₀ ms (c :: st) a) (ha : a ≤ 1) (hO : Ordered E q₀.1 (ms.reverse.map Manoeuvre.key)) :
    c.head?.map Prod.fst = some (endOf E q₀.1 (ms.reverse.map Manoeuvre.key)) := by
  cases h with
  | start h1 h2 h3 => rw [h2]; rfl
  | ok k1 k2 k3 k4 k5 k6 k7 k8 k9 =>
    rename_i m ms s b c' x
    rw [k8, k6]
    rw [List.reverse_cons, List.map_append, List.map_cons, List.map_nil] at hO ⊢
    have hif : initialTime E m ≤ finalTime E m := ordered_last hO
    rw [max_eq_right hif]
    unfold endOf
    rw [List.getLast?_append]
    rfl
  | burnFailed => omega
  | coastFailed => omega

/-- The computation after the segments have been popped and the last one reset. -/
theorem computeSegments_some_of_reset {E : Engine T M B} {strict : Bool} {env : Env T M B X} (hI : Integrator env) {t₀ : T} (hP : Prolongs env t₀) {i : Nat}
    {p : Plan T M B X} {ms : List (Manoeuvre M B X)} {st : List (Segment T X)} {a k : Nat} (hR : Ready E strict i p)
    (hF : Flown E (p.initialTime, p.initialDof) ms st a) (hms : ms.drop k = (p.manoeuvres.take i).reverse) (hk : k ≤ ms.length)
    (hst : p.stack = ((st.drop (2 * k)).head?.getD []).take 1 :: (st.drop (2 * k)).tail)
    (han : p.anomalous = if a - 2 * k = 1 then 0 else a - 2 * k)
    (hU : ∀ s ∈ st, ∀ q ∈ s, q.1 ≤ t₀) (hO : Ordered E p.initialTime (p.manoeuvres.map Manoeuvre.key)) : ∃ s p', computeSegments E env i p = some (s, p') := by
  have hpop := hF.pops k hk
  rw [hms] at hpop
  obtain ⟨c, r, hcr, hc⟩ := hpop.stack_ne
  rw [hcr] at hst hpop
  obtain ⟨q, l, rfl⟩ : ∃ q l, c = q :: l := by
    cases c with
    | nil => exact absurd rfl hc.1
    | cons q l => exact ⟨q, l, rfl⟩
  have hst' : p.stack = [q] :: r := by rw [hst]; simp
  refine computeSegments_some (q := q) hI hP hR (by unfold Plan.back; rw [hst']; rfl) fun ha => ?_
  have ha1 : a - 2 * k ≤ 1 := by rw [han] at ha; split at ha <;> omega
  rw [← List.take_append_drop i p.manoeuvres, List.map_append, ordered_append] at hO
  have hf := hpop.front_time ha1 (by rw [List.reverse_reverse]; exact hO.1)
  rw [List.reverse_reverse] at hf
  have hq : q.1 = endOf E p.initialTime ((p.manoeuvres.take i).map Manoeuvre.key) := by simpa using hf
  refine ⟨by rw [hq]; exact hO.2, hU (q :: l) ?_ q (by simp)⟩
  exact List.mem_of_mem_drop (hcr ▸ List.mem_cons_self : (q :: l) ∈ st.drop (2 * k))

theorem chain_keys {E : Engine T M B} {mass : M} {ms : List (Manoeuvre M B X)} : (updateMasses E mass ms).map Manoeuvre.key = chain E mass (ms.map fun m => m.burn) := by
  induction ms generalizing mass with
  | nil => rfl
  | cons m ms ih => simp only [updateMasses, List.map_cons, chain, ih]; rfl

theorem update_keys {E : Engine T M B} {i : Nat} {ms : List (Manoeuvre M B X)} {m : Manoeuvre M B X} {rest : List (Manoeuvre M B X)} (h : ms.drop i = m :: rest) :
    (updateInitialMassAfter E i ms).map Manoeuvre.key = (ms.take i).map Manoeuvre.key ++ chain E m.mass (m.burn :: rest.map fun m => m.burn) := by
  unfold updateInitialMassAfter
  rw [h]
  simp only [List.map_append, List.map_cons, chain_keys, chain]
  rfl

theorem insertIdx_drop {α : Type} (l : List α) (i : Nat) (x : α) (h : i ≤ l.length) : (l.insertIdx i x).drop i = x :: l.drop i := by
  induction l generalizing i with
  | nil => obtain rfl : i = 0 := by simpa using h
           simp
  | cons y l ih =>
    cases i with
    | zero => simp
    | succ i => rw [List.insertIdx_succ_cons, List.drop_succ_cons, List.drop_succ_cons, ih i (by simpa using h)]

theorem startOfPreviousCoast_some (E : Engine T M B) (p : Plan T M B X) (i : Nat) (hi : i ≤ p.manoeuvres.length) : ∃ a, startOfPreviousCoast E p i = some a := by
  unfold startOfPreviousCoast
  split
  · exact ⟨_, rfl⟩
  · rw [List.getElem?_eq_getElem (by omega)]; exact ⟨_, rfl⟩

theorem startOfBurn_some (E : Engine T M B) (p : Plan T M B X) (i : Nat) (hi : i ≤ p.manoeuvres.length) : ∃ a, startOfBurn E p i = some a := by
  unfold startOfBurn
  split
  · exact ⟨_, rfl⟩
  · rw [List.getElem?_eq_getElem (by omega)]; exact ⟨_, rfl⟩

theorem insertionMass_eq (E : Engine T M B) (i : Nat) (p : Plan T M B X) : insertionMass E i p = massBefore E p i := by
  unfold insertionMass massBefore
  cases i <;> simp

/-- The common part of the operations that change the manœuvres. -/
theorem pop_compute_some {E : Engine T M B} {strict : Bool} {env : Env T M B X} (hI : Integrator env) {t₀ : T} (hP : Prolongs env t₀) {p : Plan T M B X}
    (hU : Until p t₀) {i : Nat} (hW : WF E strict p) (hi : i ≤ p.manoeuvres.length) (d : T) (ms : List (Manoeuvre M B X)) (an : List (Option (Request T X)))
    (hms : ms.take i = p.manoeuvres.take i) (han : an.length = ms.length + 1) (hO : Ordered E p.initialTime (ms.map Manoeuvre.key)) :
    ∃ s p', (popSegmentsAffectedBy i { p with desiredFinalTime := d, manoeuvres := ms, analysers := an }).bind (computeSegments E env i) = some (s, p') := by
  obtain ⟨p2, e1, e2, e3, e4, e5, e6, e7, e8, e9⟩ := ready_of_pop hW hi d ms an hms han
  rw [e1, Option.bind_some]
  obtain ⟨hT, hD⟩ : p2.initialTime = p.initialTime ∧ p2.initialDof = p.initialDof := by
    obtain ⟨p', h1, h2, _⟩ := popAffected_spec (p := { p with desiredFinalTime := d, manoeuvres := ms, analysers := an }) hW.flown hi
    obtain rfl : p' = p2 := Option.some.inj (h1.symm.trans e1)
    rw [h2]
    exact ⟨rfl, rfl⟩
  refine computeSegments_some_of_reset hI hP e2 (ms := p.manoeuvres.reverse) (st := p.stack) (a := p.anomalous) (k := p.manoeuvres.length - i) ?_ ?_ ?_ e8 e9 ?_ ?_
  · rw [hT, hD]; exact hW.flown
  · rw [e3, hms, List.drop_reverse, show p.manoeuvres.length - (p.manoeuvres.length - i) = i by omega]
  · rw [List.length_reverse]; omega
  · exact fun s hs q hq => hU s (List.mem_reverse.2 hs) q hq
  · rw [e3, hT]
    exact hO

theorem insert_keys {E : Engine T M B} {p : Plan T M B X} {i : Nat} (hi : i ≤ p.manoeuvres.length) (mass : M) (burn : B) :
    (updateInitialMassAfter E i (p.manoeuvres.insertIdx i ⟨mass, burn, none⟩)).map Manoeuvre.key =
      (keys p).take i ++ chain E mass (burn :: (burns p).drop i) := by
  rw [update_keys (insertIdx_drop _ _ _ hi), insertIdx_take _ _ _ hi, List.map_take]
  unfold keys burns
  rw [List.map_drop]
  rfl

theorem replace_keys {E : Engine T M B} {p : Plan T M B X} {i : Nat} (hi : i < p.manoeuvres.length) (mass : M) (burn : B) :
    (updateInitialMassAfter E i (p.manoeuvres.set i ⟨mass, burn, none⟩)).map Manoeuvre.key =
      (keys p).take i ++ chain E mass (burn :: (burns p).drop (i + 1)) := by
  have h : (p.manoeuvres.set i ⟨mass, burn, none⟩).drop i = ⟨mass, burn, none⟩ :: p.manoeuvres.drop (i + 1) := by
    rw [List.drop_eq_getElem_cons (by simpa using hi), List.getElem_set_self, List.drop_set_of_lt (by omega)]
  rw [update_keys h, List.take_set_of_le le_rfl, List.map_take]
  unfold keys burns
  rw [List.map_drop]
  rfl

theorem remove_keys {E : Engine T M B} {p : Plan T M B X} {i : Nat} (hi : i < p.manoeuvres.length) :
    (updateInitialMassAfter E i (p.manoeuvres.eraseIdx i)).map Manoeuvre.key = (keys p).take i ++ afterRemoval E p i := by
  have h : (p.manoeuvres.eraseIdx i).drop i = p.manoeuvres.drop (i + 1) := by
    rw [List.eraseIdx_eq_take_drop_succ, List.drop_append_of_le_length (by simp; omega)]
    simp
  unfold afterRemoval
  have hk : (keys p).drop (i + 1) = (p.manoeuvres.drop (i + 1)).map Manoeuvre.key := by
    unfold keys; rw [List.map_drop]; rfl
  cases hd : p.manoeuvres.drop (i + 1) with
  | nil =>
    rw [hk, hd]
    unfold updateInitialMassAfter
    rw [h, hd]
    simp only [List.map_nil, List.append_nil]
    rw [List.eraseIdx_eq_take_drop_succ, hd, List.append_nil, List.map_take]
    rfl
  | cons m rest =>
    rw [hk, hd, update_keys (h.trans hd), eraseIdx_take, List.map_take]
    simp only [List.map_cons, List.map_map]
    rfl

theorem massBefore_some {E : Engine T M B} {p : Plan T M B X} {i : Nat} (hi : i ≤ p.manoeuvres.length) : ∃ mass, massBefore E p i = some mass := by
  cases i with
  | zero => exact ⟨_, rfl⟩
  | succ i => exact ⟨_, by show p.manoeuvres[i]?.map _ = _; rw [List.getElem?_eq_getElem (by omega)]; rfl⟩

theorem startOfPreviousCoast_eq (E : Engine T M B) (p : Plan T M B X) (i : Nat) : startOfPreviousCoast E p i = coastStart E p i := by
  unfold startOfPreviousCoast coastStart
  cases i with
  | zero => simp
  | succ i => simp; rfl

theorem startOfBurn_eq {E : Engine T M B} {p : Plan T M B X} {i : Nat} (hi : i ≤ p.manoeuvres.length) : startOfBurn E p i = coastEnd E p i := by
  unfold startOfBurn coastEnd
  by_cases h : i = p.manoeuvres.length
  · subst h; simp
  · rw [if_neg h, List.getElem?_eq_getElem (by omega)]; rfl

theorem fitsBetween_iff {E : Engine T M B} {mass : M} {burn : B} {a b : T} :
    fitsBetween E mass burn a b = true ↔ a < E.initialTime mass burn ∧ E.finalTime mass burn < b := by
  unfold fitsBetween
  simp

/-! ## C50 -/

/-- **C50**, in part: the insertion of a burn doesn't fail any check: it is rejected, unless it fits between the neighbouring manœuvres, and in that case it is
sufficient that the resulting manœuvres be in order.  Missing: the cases where they are not, see `C50_insert_counterexample`. -/
theorem C50_insert_partial (E : Engine T M B) (env : Env T M B X) (p : Plan T M B X) (hX : Context E env p) (burn : B) (i : Nat)
    (hi : i ≤ p.manoeuvres.length) (hO : ∀ mass a b, massBefore E p i = some mass → coastStart E p i = some a → coastEnd E p i = some b →
      a < E.initialTime mass burn → E.finalTime mass burn < b →
      Ordered E p.initialTime ((keys p).take i ++ chain E mass (burn :: (burns p).drop i))) : ∃ s p', insert E env burn i p = some (s, p') := by
  obtain ⟨⟨copies, hr⟩, hI, t₀, hU, hP⟩ := hX
  have hW := wf_reachable hr
  obtain ⟨mass, hm⟩ := massBefore_some (E := E) hi
  unfold insert
  rw [if_pos hi, insertionMass_eq, hm, Option.bind_some]
  split
  · exact ⟨_, _, rfl⟩
  · obtain ⟨a, ha⟩ := startOfPreviousCoast_some E p i hi
    obtain ⟨b, hb⟩ := startOfBurn_some E p i hi
    rw [ha, Option.bind_some, hb, Option.bind_some]
    split
    · exact ⟨_, _, rfl⟩
    · rename_i hf
      rw [not_not, fitsBetween_iff] at hf
      exact pop_compute_some hI hP hU hW hi p.desiredFinalTime _ (p.analysers.insertIdx (i + 1) none)
        (by rw [updateInitialMassAfter_take, insertIdx_take _ _ _ hi])
        (by rw [updateInitialMassAfter_length, List.length_insertIdx_of_le_length hi,
              List.length_insertIdx_of_le_length (by rw [hW.analysers]; omega), hW.analysers])
        (by rw [insert_keys hi]
            exact hO mass a b hm (by rw [← startOfPreviousCoast_eq]; exact ha) (by rw [← startOfBurn_eq hi]; exact hb) hf.1 hf.2)

/-- **C50**, in part: the same for replacements.  Missing: the cases where the resulting manœuvres are not in order, see `C50_replace_counterexample`. -/
theorem C50_replace_partial (E : Engine T M B) (env : Env T M B X) (p : Plan T M B X) (hX : Context E env p) (burn : B) (i : Nat)
    (old : Manoeuvre M B X) (hold : p.manoeuvres[i]? = some old)
    (hO : ∀ a, coastStart E p i = some a → a < E.initialTime old.mass burn →
      (∀ next, p.manoeuvres[i + 1]? = some next → E.finalTime old.mass burn < initialTime E next) →
      Ordered E p.initialTime ((keys p).take i ++ chain E old.mass (burn :: (burns p).drop (i + 1)))) :
    ∃ s p', replace E env burn i p = some (s, p') := by
  obtain ⟨⟨copies, hr⟩, hI, t₀, hU, hP⟩ := hX
  have hW := wf_reachable hr
  have hi : i < p.manoeuvres.length := (List.getElem?_eq_some_iff.1 hold).1
  have key : ∀ d, Ordered E p.initialTime ((keys p).take i ++ chain E old.mass (burn :: (burns p).drop (i + 1))) →
      ∃ s p', replaceAt E env ⟨old.mass, burn, none⟩ i { p with desiredFinalTime := d } = some (s, p') := fun d hO =>
    pop_compute_some hI hP hU hW hi.le d _ p.analysers (by rw [updateInitialMassAfter_take, List.take_set_of_le le_rfl])
      (by rw [updateInitialMassAfter_length, List.length_set, hW.analysers]) (by rw [replace_keys hi]; exact hO)
  unfold replace
  rw [hold, Option.bind_some]
  split
  · exact ⟨_, _, rfl⟩
  · obtain ⟨a, ha⟩ := startOfPreviousCoast_some E p i hi.le
    rw [ha, Option.bind_some]
    have ha' : coastStart E p i = some a := by rw [← startOfPreviousCoast_eq]; exact ha
    split
    · rename_i hlast
      split
      · rename_i haf
        refine key _ (hO a ha' (by simpa [isAfter] using haf) fun next hn => ?_)
        rw [List.getElem?_eq_none (by omega)] at hn
        exact absurd hn (by simp)
      · exact ⟨_, _, rfl⟩
    · rename_i hlast
      obtain ⟨b, hb⟩ := startOfBurn_some E p (i + 1) hi
      rw [hb, Option.bind_some]
      split
      · exact ⟨_, _, rfl⟩
      · rename_i hf
        rw [not_not, fitsBetween_iff] at hf
        refine key p.desiredFinalTime (hO a ha' hf.1 fun next hn => ?_)
        unfold startOfBurn at hb
        rw [if_neg hlast, hn] at hb
        obtain rfl := Option.some.inj hb
        exact hf.2

/-- **C50**, in part: the same for removals (see `C50_sound_remove` for a sufficient condition). -/
theorem C50_remove_partial (E : Engine T M B) (env : Env T M B X) (p : Plan T M B X) (hX : Context E env p) (i : Nat)
    (hi : i < p.manoeuvres.length) (hO : Ordered E p.initialTime ((keys p).take i ++ afterRemoval E p i)) : ∃ s p', remove E env i p = some (s, p') := by
  obtain ⟨⟨copies, hr⟩, hI, t₀, hU, hP⟩ := hX
  have hW := wf_reachable hr
  unfold remove
  rw [if_pos hi]
  exact pop_compute_some hI hP hU hW hi.le p.desiredFinalTime _ (p.analysers.eraseIdx (i + 1)) (by rw [updateInitialMassAfter_take, eraseIdx_take])
    (by rw [updateInitialMassAfter_length, List.length_eraseIdx_of_lt hi, List.length_eraseIdx_of_lt (by rw [hW.analysers]; omega),
          hW.analysers]; omega)
    (by rw [remove_keys hi]; exact hO)

/-- **C50.**  Changing the final time never fails a check. -/
theorem C50_final_time (E : Engine T M B) (env : Env T M B X) (p : Plan T M B X) (hX : Context E env p) (t : T) :
    ∃ s p', setDesiredFinalTime E env t p = some (s, p') := by
  obtain ⟨⟨copies, hr⟩, hI, t₀, hU, hP⟩ := hX
  have hW := wf_reachable hr
  unfold setDesiredFinalTime
  split
  · exact ⟨_, _, rfl⟩
  · obtain ⟨r1, r2⟩ := ready_of_reset (i := p.manoeuvres.length) (q := { p with desiredFinalTime := t }) hW
      ⟨p.stack, p.anomalous, t, rfl, le_rfl, by rw [List.take_length]; exact hW.flown⟩
    rw [r1, Option.bind_some]
    obtain ⟨c, r, q, l, hst, hc, hq, hb, hl, hfr⟩ := back_of_flown hW.flown
    have hlc : l ∈ c := List.mem_of_mem_head? hl
    refine computeSegments_some (q := l) hI hP r2 ?_ fun _ => ⟨?_, hU c (List.mem_reverse.2 (by rw [hst]; simp)) l hlc⟩
    · unfold Plan.back Plan.reset
      simp only [hst]
      cases c with
      | nil => simp at hl
      | cons x c => simp at hl; subst hl; rfl
    · show Ordered E l.1 ((p.manoeuvres.drop p.manoeuvres.length).map _)
      rw [List.drop_length]
      trivial

/-- **C50**, in part: recomputing the plan, for instance for new parameters, doesn't fail any check if the manœuvres are in order. -/
theorem C50_recompute_partial (E : Engine T M B) (env : Env T M B X) (p : Plan T M B X) (hX : Context E env p)
    (hO : Ordered E p.initialTime (keys p)) : ∃ s p', recomputeAllSegments E env p = some (s, p') := by
  obtain ⟨⟨copies, hr⟩, hI, t₀, hU, hP⟩ := hX
  have hW := wf_reachable hr
  have hlen := hW.flown.length
  rw [List.length_reverse] at hlen
  unfold recomputeAllSegments
  rw [show (p.stack.length : Int) - 1 = ((2 * p.manoeuvres.length : Nat) : Int) by rw [hlen]; push_cast; omega,
    popLastSegments_spec _ _ (by omega), Option.bind_some]
  have hpop := hW.flown.pops p.manoeuvres.length (by simp)
  rw [List.drop_eq_nil_of_le (by simp)] at hpop
  obtain ⟨r1, r2⟩ := ready_of_reset (i := 0) hW
    (q := { p with stack := p.stack.drop (2 * p.manoeuvres.length), anomalous := p.anomalous - 2 * p.manoeuvres.length })
    ⟨_, _, p.desiredFinalTime, rfl, by omega, hpop⟩
  rw [r1, Option.bind_some]
  exact computeSegments_some_of_reset hI hP r2 (ms := p.manoeuvres.reverse) (st := p.stack) (a := p.anomalous) (k := p.manoeuvres.length) hW.flown
    (by simp [Plan.reset]) (by simp) rfl rfl (fun s hs q hq => hU s (List.mem_reverse.2 hs) q hq) hO

/-- **C50**, in part: the queries that avoid deadlines don't fail any check if the manœuvres are in order. -/
theorem C50_avoid_deadline_partial (E : Engine T M B) (env : Env T M B X) (p : Plan T M B X) (hX : Context E env p)
    (hO : Ordered E p.initialTime (keys p)) : ∃ s p', avoidDeadline E env p = some (s, p') := by
  obtain ⟨⟨copies, hr⟩, hI, t₀, hU, hP⟩ := hX
  have hW := wf_reachable hr
  unfold avoidDeadline
  split
  · exact ⟨_, _, rfl⟩
  · have hle := anomalous_le hW.flown
    rw [List.length_reverse] at hle
    have hn : p.anomalous / 2 ≤ p.manoeuvres.length := by omega
    rw [if_neg (not_lt.2 hn)]
    rw [popManoeuvres_spec _ _ hW.flown (by rw [List.length_reverse]; exact hn), Option.bind_some]
    have hpop := hW.flown.pops (p.anomalous / 2) (by rw [List.length_reverse]; exact hn)
    rw [List.drop_reverse] at hpop
    obtain ⟨r1, r2⟩ := ready_of_reset (i := p.manoeuvres.length - p.anomalous / 2) hW
      (q := { p with stack := p.stack.drop (2 * (p.anomalous / 2)), anomalous := p.anomalous - 2 * (p.anomalous / 2) })
      ⟨_, _, p.desiredFinalTime, rfl, by omega, hpop⟩
    rw [r1, Option.bind_some]
    exact computeSegments_some_of_reset hI hP r2 (ms := p.manoeuvres.reverse) (st := p.stack) (a := p.anomalous) (k := p.anomalous / 2) hW.flown
      (by rw [List.drop_reverse]; rfl) (by rw [List.length_reverse]; exact hn) rfl rfl (fun s hs q hq => hU s (List.mem_reverse.2 hs) q hq) hO

/-- **C50.**  The construction of a flight plan doesn't fail any check, if its times are in order. -/
theorem C50_make (E : Engine T M B) (env : Env T M B X) (mass : M) (t : T) (x : X) (desired : T) (hI : Integrator env) (hP : Prolongs env t)
    (ht : t ≤ desired) : ∃ p, make E env mass t x desired = some p := by
  unfold make
  rw [if_pos ht]
  have hR : Ready E true 0 (⟨mass, t, x, desired, [[(t, x)]], 0, .ok, [], [none], true⟩ : Plan T M B X) :=
    ⟨.start ⟨by simp, by simp⟩ rfl (by simp), by simp, by simp, rfl⟩
  obtain ⟨s, p', h⟩ := computeSegments_some (q := (t, x)) hI hP hR rfl fun _ => ⟨trivial, le_rfl⟩
  rw [h]
  exact ⟨p', rfl⟩

/-! ## Rockets -/

theorem ordered_le {E : Engine T M B} {t t' : T} {l : List (M × B)} (h : Ordered E t l) (ht : t' ≤ t) : Ordered E t' l := by
  cases l with
  | nil => trivial
  | cons m l => exact ⟨ht.trans h.1, h.2⟩

theorem ordered_chain_le [Preorder M] {E : Engine T M B} (hE : Monotone E) {t t' : T} {m m' : M} {bs : List B} (h : Ordered E t (chain E m bs)) (ht : t' ≤ t)
    (hm : m' ≤ m) : Ordered E t' (chain E m' bs) := by
  induction bs generalizing t t' m m' with
  | nil => trivial
  | cons b bs ih =>
    obtain ⟨h1, h2, h3⟩ := h
    exact ⟨ht.trans (h1.trans (hE.initial _ _ b hm)), hE.forward _ _, ih h3 (hE.final _ _ b hm) (hE.mass _ _ b hm)⟩

theorem keys_of_massChain {E : Engine T M B} {mass : M} {ms : List (Manoeuvre M B X)} (h : MassChain E mass ms) :
    ms.map Manoeuvre.key = chain E mass (ms.map fun m => m.burn) := by
  induction ms generalizing mass with
  | nil => rfl
  | cons m ms ih =>
    obtain ⟨rfl, h⟩ := h
    simp only [List.map_cons, chain, ih h]
    rfl

theorem endOf_take {E : Engine T M B} {p : Plan T M B X} {i : Nat} {a : T} (hi : i ≤ p.manoeuvres.length) (h : startOfPreviousCoast E p i = some a) :
    endOf E p.initialTime ((keys p).take i) = a := by
  unfold startOfPreviousCoast at h
  split at h
  · rename_i h0
    subst h0
    simpa [endOf] using h
  · rename_i h0
    obtain ⟨m, hm, rfl⟩ := Option.map_eq_some_iff.1 h
    have : ((keys p).take i).getLast? = some (m.mass, m.burn) := by
      rw [List.getLast?_eq_getElem?, List.getElem?_take_of_lt (by rw [List.length_take]; simp [keys]; omega), List.length_take]
      unfold keys
      rw [List.getElem?_map, List.length_map, min_eq_left hi, hm]
      rfl
    unfold endOf
    rw [this]
    rfl

theorem sound_drop {E : Engine T M B} {p : Plan T M B X} (hS : Sound E p) {i : Nat} {mass : M} (hm : massBefore E p i = some mass) :
    (keys p).drop i = chain E mass ((burns p).drop i) := by
  have hM := hS.mass
  rw [← List.take_append_drop i p.manoeuvres, massChain_append, massBefore_take (by rw [insertionMass_eq]; exact hm)] at hM
  have := keys_of_massChain hM.2
  unfold keys burns
  rw [← List.map_drop, ← List.map_drop]
  exact this

theorem sound_next {E : Engine T M B} {p : Plan T M B X} (hS : Sound E p) {i : Nat} {mass : M} (hm : massBefore E p i = some mass)
    {m : Manoeuvre M B X} (h : p.manoeuvres[i]? = some m) : m.mass = mass := by
  have hM := hS.mass
  have hlt := (List.getElem?_eq_some_iff.1 h).1
  rw [← List.take_append_drop i p.manoeuvres, massChain_append, massBefore_take (by rw [insertionMass_eq]; exact hm),
    List.drop_eq_getElem_cons hlt] at hM
  rw [List.getElem?_eq_getElem hlt] at h
  rw [← Option.some.inj h]
  exact hM.2.1

/-- The manœuvres starting with the one at index `i` are after its initial time. -/
theorem ordered_from {E : Engine T M B} {p : Plan T M B X} (hS : Sound E p) {i : Nat} {b : T} (hb : ∀ m, p.manoeuvres[i]? = some m → b ≤ initialTime E m) :
    Ordered E b ((keys p).drop i) := by
  have hO := hS.order
  rw [← List.take_append_drop i (keys p), ordered_append] at hO
  cases hd : (keys p).drop i with
  | nil => trivial
  | cons k rest =>
    rw [hd] at hO
    refine ⟨?_, hO.2.2⟩
    have h1 : (keys p)[i]? = some k := by
      have := congrArg List.head? hd
      rw [List.head?_drop] at this
      exact this
    unfold keys at h1
    rw [List.getElem?_map] at h1
    obtain ⟨m, hm, rfl⟩ := Option.map_eq_some_iff.1 h1
    exact hb m hm

/-- The order of the manœuvres after an insertion that fits. -/
theorem ordered_insert [Preorder M] {E : Engine T M B} (hE : Monotone E) {p : Plan T M B X} (hS : Sound E p) {i : Nat} (hi : i ≤ p.manoeuvres.length)
    {mass : M} (hm : massBefore E p i = some mass) {burn : B} {a b : T} (ha : coastStart E p i = some a) (hb : coastEnd E p i = some b)
    (h1 : a < E.initialTime mass burn) (h2 : E.finalTime mass burn < b) :
    Ordered E p.initialTime ((keys p).take i ++ chain E mass (burn :: (burns p).drop i)) := by
  have hO := hS.order
  rw [← List.take_append_drop i (keys p), ordered_append] at hO
  rw [ordered_append]
  refine ⟨hO.1, ?_⟩
  rw [endOf_take hi (by rw [startOfPreviousCoast_eq]; exact ha)]
  refine ⟨h1.le, hE.forward _ _, ?_⟩
  have : Ordered E b (chain E mass ((burns p).drop i)) := by
    rw [← sound_drop hS hm]
    refine ordered_from hS fun m hm' => ?_
    unfold coastEnd at hb
    rw [hm'] at hb
    exact (Option.some.inj hb).ge
  exact ordered_chain_le hE this h2.le (hE.loses _ _)

theorem sound_of {E : Engine T M B} {strict : Bool} {p p' : Plan T M B X} {s : Status} {ms : List (Manoeuvre M B X)}
    (h : Recomputed E strict p p' s (ms.map Manoeuvre.key)) (hM : MassChain E p.initialMass ms)
    (hO : Ordered E p.initialTime (ms.map Manoeuvre.key)) : Sound E p' := by
  refine ⟨massChain_of_keys h.initialMass h.keys_eq hM, ?_⟩
  rw [h.initialTime]
  have : keys p' = ms.map Manoeuvre.key := h.keys_eq
  rw [this]
  exact hO

/-- **C50.**  For rockets, inserting a burn in a sound plan never fails a check, and yields a sound plan. -/
theorem C50_rocket_insert [Preorder M] (E : Engine T M B) (hE : Monotone E) (env : Env T M B X) (p : Plan T M B X) (hX : Context E env p)
    (hS : Sound E p) (burn : B) (i : Nat) (hi : i ≤ p.manoeuvres.length) : ∃ s p', insert E env burn i p = some (s, p') ∧ Sound E p' := by
  obtain ⟨s, p', h⟩ := C50_insert_partial E env p hX burn i hi fun mass a b hm ha hb h1 h2 => ordered_insert hE hS hi hm ha hb h1 h2
  refine ⟨s, p', h, ?_⟩
  obtain ⟨⟨copies, hr⟩, hI, _⟩ := hX
  have hW := wf_reachable hr
  rcases (insert_cases h).2 with ⟨rfl, _⟩ | ⟨_, mass, a, b, hm, ha, hb, hf, hc⟩
  · exact hS
  · rcases insert_spec hI hW h with rfl | ⟨mass', hm', hrec⟩
    · exact hS
    · obtain rfl : mass = mass' := by rw [hm] at hm'; exact Option.some.inj hm'
      have hf := fitsBetween_iff.1 hf
      refine sound_of hrec (massChain_insert hS.mass hi hm) ?_
      rw [insert_keys hi]
      exact ordered_insert hE hS hi (by rw [← insertionMass_eq]; exact hm) (by rw [← startOfPreviousCoast_eq]; exact ha)
        (by rw [← startOfBurn_eq hi]; exact hb) hf.1 hf.2

/-- **C50.**  For rockets, replacing a burn of a sound plan by one that doesn't consume less mass never fails a check, and yields a sound plan; the last burn
may be replaced by any burn. -/
theorem C50_rocket_replace [Preorder M] (E : Engine T M B) (hE : Monotone E) (env : Env T M B X) (p : Plan T M B X) (hX : Context E env p)
    (hS : Sound E p) (burn : B) (i : Nat) (old : Manoeuvre M B X) (hold : p.manoeuvres[i]? = some old)
    (hc : i + 1 = p.manoeuvres.length ∨ E.finalMass old.mass burn ≤ E.finalMass old.mass old.burn) :
    ∃ s p', replace E env burn i p = some (s, p') ∧ Sound E p' := by
  have hi : i < p.manoeuvres.length := (List.getElem?_eq_some_iff.1 hold).1
  have hO : ∀ a, coastStart E p i = some a → a < E.initialTime old.mass burn →
      (∀ next, p.manoeuvres[i + 1]? = some next → E.finalTime old.mass burn < initialTime E next) →
      Ordered E p.initialTime ((keys p).take i ++ chain E old.mass (burn :: (burns p).drop (i + 1))) := by
    intro a ha h1 h2
    have hO := hS.order
    rw [← List.take_append_drop i (keys p), ordered_append] at hO
    rw [ordered_append]
    refine ⟨hO.1, ?_⟩
    rw [endOf_take hi.le (by rw [startOfPreviousCoast_eq]; exact ha)]
    refine ⟨h1.le, hE.forward _ _, ?_⟩
    rcases hc with hlast | hle
    · rw [List.drop_eq_nil_of_le (by unfold burns; rw [List.length_map]; omega)]
      trivial
    · have hmb : massBefore E p (i + 1) = some (E.finalMass old.mass old.burn) := by
        show p.manoeuvres[i]?.map _ = _
        rw [hold]
        rfl
      have : Ordered E (E.finalTime old.mass burn) (chain E (E.finalMass old.mass old.burn) ((burns p).drop (i + 1))) := by
        rw [← sound_drop hS hmb]
        exact ordered_from hS fun m hm => (h2 m hm).le
      exact ordered_chain_le hE this le_rfl hle
  obtain ⟨s, p', h⟩ := C50_replace_partial E env p hX burn i old hold hO
  refine ⟨s, p', h, ?_⟩
  obtain ⟨⟨copies, hr⟩, hI, _⟩ := hX
  have hW := wf_reachable hr
  have hrs := replace_spec hI hW h
  unfold replace at h
  rw [hold, Option.bind_some] at h
  split at h
  · obtain rfl : p = p' := by simpa using (congrArg (Option.map Prod.snd) h)
    exact hS
  · obtain ⟨a, ha, h⟩ := Option.bind_eq_some_iff.1 h
    have ha' : coastStart E p i = some a := by rw [← startOfPreviousCoast_eq]; exact ha
    have fin : a < E.initialTime old.mass burn → (∀ next, p.manoeuvres[i + 1]? = some next → E.finalTime old.mass burn < initialTime E next) → Sound E p' := by
      intro h1 h2
      rcases hrs with ⟨rfl, _⟩ | ⟨old', hold', hrec⟩
      · exact hS
      · obtain rfl : old = old' := by rw [hold] at hold'; exact Option.some.inj hold'
        refine sound_of hrec (massChain_replace hS.mass hold) ?_
        rw [replace_keys hi]
        exact hO a ha' h1 h2
    split at h
    · rename_i hlast
      split at h
      · rename_i haf
        refine fin (by simpa [isAfter] using haf) fun next hn => ?_
        rw [List.getElem?_eq_none (by omega)] at hn
        exact absurd hn (by simp)
      · obtain rfl : p = p' := by simpa using (congrArg (Option.map Prod.snd) h)
        exact hS
    · rename_i hlast
      obtain ⟨b, hb, h⟩ := Option.bind_eq_some_iff.1 h
      split at h
      · obtain rfl : p = p' := by simpa using (congrArg (Option.map Prod.snd) h)
        exact hS
      · rename_i hf
        rw [not_not, fitsBetween_iff] at hf
        refine fin hf.1 fun next hn => ?_
        unfold startOfBurn at hb
        rw [if_neg hlast, hn] at hb
        obtain rfl := Option.some.inj hb
        exact hf.2

/-- **C50.**  Removing a burn from a sound plan never fails a check; removing the last one yields a sound plan. -/
theorem C50_sound_remove (E : Engine T M B) (env : Env T M B X) (p : Plan T M B X) (hX : Context E env p) (hS : Sound E p) (i : Nat)
    (hi : i < p.manoeuvres.length) :
    ∃ s p', remove E env i p = some (s, p') ∧ Ordered E p'.initialTime (keys p') ∧ (i + 1 = p.manoeuvres.length → Sound E p') := by
  have hmb : massBefore E p (i + 1) = some (E.finalMass p.manoeuvres[i].mass p.manoeuvres[i].burn) := by
    show p.manoeuvres[i]?.map _ = _
    rw [List.getElem?_eq_getElem hi]
    rfl
  have hk : afterRemoval E p i = (keys p).drop (i + 1) := by
    have hd := sound_drop hS hmb
    unfold afterRemoval
    cases h : (keys p).drop (i + 1) with
    | nil => rfl
    | cons k rest =>
      rw [h] at hd
      have hb : (burns p).drop (i + 1) = k.2 :: rest.map Prod.snd := by
        have : burns p = (keys p).map Prod.snd := by unfold burns keys; rw [List.map_map]; rfl
        rw [this, ← List.map_drop, h]
        rfl
      rw [hb] at hd
      have hk1 : k.1 = E.finalMass p.manoeuvres[i].mass p.manoeuvres[i].burn := congrArg Prod.fst (List.cons.inj hd).1
      simp only
      rw [hk1]
      exact hd.symm
  have hO : Ordered E p.initialTime ((keys p).take i ++ afterRemoval E p i) := by
    rw [hk]
    have hO := hS.order
    rw [← List.take_append_drop i (keys p), ordered_append] at hO
    rw [ordered_append]
    refine ⟨hO.1, ?_⟩
    have h2 := hO.2
    rw [List.drop_eq_getElem_cons (by unfold keys; rw [List.length_map]; exact hi)] at h2
    exact ordered_le h2.2.2 (h2.1.trans h2.2.1)
  obtain ⟨s, p', h⟩ := C50_remove_partial E env p hX i hi hO
  refine ⟨s, p', h, ?_⟩
  obtain ⟨⟨copies, hr⟩, hI, _⟩ := hX
  have hrec := remove_spec hI (wf_reachable hr) h
  have hkeys : keys p' = (keys p).take i ++ afterRemoval E p i := by
    rw [← remove_keys hi]
    exact hrec.keys_eq
  have hO' : Ordered E p'.initialTime (keys p') := by rw [hrec.initialTime, hkeys]; exact hO
  refine ⟨hO', fun hlast => ⟨?_, hO'⟩⟩
  refine massChain_of_keys hrec.initialMass (ms := p.manoeuvres.take i) ?_ (massChain_take hS.mass i)
  have : keys p' = (keys p).take i := by
    rw [hkeys, hk, List.drop_eq_nil_of_le (by unfold keys; rw [List.length_map]; omega), List.append_nil]
  show keys p' = _
  rw [this, List.map_take]
  rfl

/-- **C50.**  The other operations on a sound plan never fail a check and yield a sound plan. -/
theorem C50_sound_others (E : Engine T M B) (env : Env T M B X) (p : Plan T M B X) (hX : Context E env p) (hS : Sound E p) :
    (∀ t, ∃ s p', setDesiredFinalTime E env t p = some (s, p') ∧ Sound E p') ∧
      (∃ s p', recomputeAllSegments E env p = some (s, p') ∧ Sound E p') ∧
      (∃ s p', avoidDeadline E env p = some (s, p') ∧ Sound E p') ∧
      (∀ b, Sound E (enableAnalysis b p)) ∧ ∃ p', copy p = some p' ∧ Sound E p' := by
  have hX' := hX
  obtain ⟨⟨copies, hr⟩, hI, _⟩ := hX'
  have hW := wf_reachable hr
  have fin : ∀ {p' s}, Recomputed E (!copies) p p' s (p.manoeuvres.map Manoeuvre.key) → Sound E p' := fun h => sound_of h hS.mass hS.order
  refine ⟨fun t => ?_, ?_, ?_, fun b => ?_, ?_⟩
  · obtain ⟨s, p', h⟩ := C50_final_time E env p hX t
    refine ⟨s, p', h, ?_⟩
    rcases setDesiredFinalTime_spec hI hW h with ⟨rfl, _⟩ | ⟨_, h, _⟩
    · exact hS
    · exact fin h
  · obtain ⟨s, p', h⟩ := C50_recompute_partial E env p hX hS.order
    exact ⟨s, p', h, fin (recomputeAll_spec hI hW h)⟩
  · obtain ⟨s, p', h⟩ := C50_avoid_deadline_partial E env p hX hS.order
    refine ⟨s, p', h, ?_⟩
    rcases avoidDeadline_spec hI hW h with ⟨rfl, _⟩ | h
    · exact hS
    · exact fin h
  · have e : (enableAnalysis b p).initialTime = p.initialTime := by
      unfold enableAnalysis
      split
      · rfl
      · split <;> rfl
    obtain ⟨_, e1, e2⟩ := enableAnalysis_spec hW b
    refine ⟨by rw [e1, e2]; exact hS.mass, ?_⟩
    unfold keys
    rw [e, e1]
    exact hS.order
  · exact ⟨_, copy_spec hW, hS.mass, hS.order⟩

/-! ## Examples -/

/-- A rocket that either burns half of its mass, at one unit per second, or does nothing.  Its burns are given by their initial time. -/
def halver : Engine Int Int (Int × Bool) :=
  ⟨fun _ b => b.1, fun m b => if b.2 then b.1 + (m.toNat : Int) / 2 else b.1, fun m b => if b.2 then min m (m / 2) else m, fun _ => false, fun _ => true⟩

theorem halver_monotone : Monotone halver := by
  refine ⟨fun m b => ?_, fun m m' b h => ?_, fun m m' b h => le_rfl, fun m m' b h => ?_, fun m b => ?_⟩ <;> simp only [halver] <;> split <;> omega

/-- The integrations succeed, in one step. -/
def okEnv' : Env Int Int (Int × Bool) Int := ⟨fun _ t => t, fun _ _ q t => ([(t, q.2 + 1)], .ok)⟩

theorem okEnv'_integrator : Integrator okEnv' :=
  ⟨fun i a q t h => by simp [okEnv', h], fun i a q t h => by simp [okEnv'], fun i a q t h _ => by simp [okEnv']⟩

theorem okEnv'_prolongs (t₀ : Int) : Prolongs okEnv' t₀ := ⟨fun i t => Or.inl le_rfl, fun i j t u h => Or.inl le_rfl⟩

/-- A plan without manœuvres, for a vessel of mass 8. -/
def half₀ : Plan Int Int (Int × Bool) Int := (make halver okEnv' 8 0 0 50).get (by decide +kernel)

/-- A burn of 4 seconds. -/
def half₁ : Status × Plan Int Int (Int × Bool) Int := (insert halver okEnv' (10, true) 0 half₀).get (by decide +kernel)

/-- A burn of 2 seconds. -/
def half₂ : Status × Plan Int Int (Int × Bool) Int := (insert halver okEnv' (20, true) 1 half₁.2).get (by decide +kernel)

/-- A burn of 1 second. -/
def half₃ : Status × Plan Int Int (Int × Bool) Int := (insert halver okEnv' (23, true) 2 half₂.2).get (by decide +kernel)

theorem half₀_eq : make halver okEnv' 8 0 0 50 = some half₀ := (Option.some_get _).symm

theorem half₁_eq : insert halver okEnv' (10, true) 0 half₀ = some half₁ := (Option.some_get _).symm

theorem half₂_eq : insert halver okEnv' (20, true) 1 half₁.2 = some half₂ := (Option.some_get _).symm

theorem half₃_eq : insert halver okEnv' (23, true) 2 half₂.2 = some half₃ := (Option.some_get _).symm

theorem half₃_reachable : Reachable halver false half₃.2 :=
  .insert (s := half₃.1) (burn := (23, true)) (i := 2) (.insert (s := half₂.1) (burn := (20, true)) (i := 1)
    (.insert (s := half₁.1) (burn := (10, true)) (i := 0) (.make (mass := 8) (t := 0) (x := 0) (desired := 50) okEnv'_integrator half₀_eq)
      okEnv'_integrator half₁_eq) okEnv'_integrator half₂_eq) okEnv'_integrator half₃_eq

theorem half₃_until : Until half₃.2 50 := by
  unfold Until
  decide +kernel

theorem half₃_context : Context halver okEnv' half₃.2 := ⟨⟨false, half₃_reachable⟩, okEnv'_integrator, 50, half₃_until, okEnv'_prolongs 50⟩

theorem half₃_sound : Sound halver half₃.2 := by
  have h1 : half₃.2.manoeuvres = [⟨8, (10, true), some 1⟩, ⟨4, (20, true), some 3⟩, ⟨2, (23, true), some 5⟩] := by decide +kernel
  have h2 : half₃.2.initialMass = 8 := by decide +kernel
  have h3 : half₃.2.initialTime = 0 := by decide +kernel
  refine ⟨?_, ?_⟩
  · rw [h1, h2]
    simp [MassChain, halver]
  · unfold keys
    rw [h1, h3]
    simp [Ordered, halver]

/-- The hypotheses of `C50_rocket_insert`, `C50_sound_remove` and `C50_sound_others` hold for this plan. -/
example : ∃ s p', insert halver okEnv' (5, true) 0 half₃.2 = some (s, p') ∧ Sound halver p' :=
  C50_rocket_insert halver halver_monotone okEnv' half₃.2 half₃_context half₃_sound (5, true) 0 (by omega)

example : (insert halver okEnv' (5, true) 0 half₃.2).map (fun r => (r.1, burns r.2)) =
    some (.ok, [(5, true), (10, true), (20, true), (23, true)]) := by decide +kernel

/-- **C50** doesn't hold for replacements: if a burn is replaced by a smaller one, the vessel is heavier for the subsequent burns, which take longer and may
overlap.  There is no check for this in `Replace`, and a check fails when computing the segments.  Here the burn is replaced by one that has no effect, which
fits; the second burn would end at time 24, but the third one starts at time 23. -/
theorem C50_replace_counterexample : ∃ (E : Engine Int Int (Int × Bool)) (env : Env Int Int (Int × Bool) Int) (p : Plan Int Int (Int × Bool) Int),
    Monotone E ∧ Context E env p ∧ Sound E p ∧ p.anomalous = 0 ∧ ∃ burn old, p.manoeuvres[0]? = some old ∧ E.singular burn = false ∧
      E.initialTime old.mass burn = initialTime E old ∧ E.finalTime old.mass burn < finalTime E old ∧ replace E env burn 0 p = none := by
  refine ⟨halver, okEnv', half₃.2, halver_monotone, half₃_context, half₃_sound, by decide +kernel, (10, false), ⟨8, (10, true), some 1⟩, by decide +kernel,
    rfl, rfl, by decide, by decide +kernel⟩

/-- The removal of the first burn. -/
def halfRemoved : Status × Plan Int Int (Int × Bool) Int := (remove halver okEnv' 0 half₃.2).get (by decide +kernel)

theorem halfRemoved_eq : remove halver okEnv' 0 half₃.2 = some halfRemoved := (Option.some_get _).symm

/-- **C50** doesn't hold for the insertions that follow a removal, because a removal doesn't update the masses of the subsequent burns (see
`C33_remove_counterexample`) and an insertion does: here the insertion of a burn that has no effect, long before the others, fails a check. -/
theorem C50_insert_counterexample : ∃ (E : Engine Int Int (Int × Bool)) (env : Env Int Int (Int × Bool) Int) (p : Plan Int Int (Int × Bool) Int),
    Monotone E ∧ Context E env p ∧ p.anomalous = 0 ∧ Ordered E p.initialTime (keys p) ∧ ∃ burn, E.singular burn = false ∧
      p.initialTime < E.initialTime p.initialMass burn ∧ coastEnd E p 0 = some 20 ∧ E.finalTime p.initialMass burn < 20 ∧ insert E env burn 0 p = none := by
  obtain ⟨s, p', h1, h2, _⟩ := C50_sound_remove halver okEnv' half₃.2 half₃_context half₃_sound 0 (by decide +kernel)
  have he : halfRemoved = (s, p') := Option.some.inj (halfRemoved_eq.symm.trans h1)
  have h2 : Ordered halver halfRemoved.2.initialTime (keys halfRemoved.2) := by rw [he]; exact h2
  refine ⟨halver, okEnv', halfRemoved.2, halver_monotone, ⟨⟨false, .remove (s := halfRemoved.1) (i := 0) half₃_reachable okEnv'_integrator halfRemoved_eq⟩,
    okEnv'_integrator, 50, ?_, okEnv'_prolongs 50⟩, by decide +kernel, h2, (5, false), rfl, by decide +kernel, by decide +kernel, by decide +kernel,
    by decide +kernel⟩
  unfold Until
  decide +kernel

end Principia.FlightPlan
