import Verif.Ksp.FlightPlanExamples

set_option linter.unusedSimpArgs false
set_option linter.unusedVariables false
set_option linter.unusedSectionVars false

/-!
The analyses of the coasts of flight plans, C49.
-/

namespace Principia.FlightPlan

open Spec

variable {T M B X : Type} [LinearOrder T]

/-- The analysis of the coast `s` has been requested. -/
def Requested (an : List (Option (Request T X))) (c : Nat) (s : Segment T X) (complete : Prop) : Prop :=
  ∃ r, an[c]? = some (some r) ∧ s.head? = some r.first ∧ (complete → s.getLast?.map Prod.fst = some r.missionEnd)

/-- The analyses that have been requested, except that of the last coast, if it is not anomalous. -/
def LoopRequests (st : List (Segment T X)) (a : Nat) (an : List (Option (Request T X))) : Prop :=
  ∀ c s, (a = 0 → 2 * c + 1 < st.length) → st.reverse[2 * c]? = some s → 2 * c + a ≤ st.length → Requested an c s (2 * c + a < st.length)

/-- All the analyses that have been requested. -/
def AllRequests (st : List (Segment T X)) (a : Nat) (an : List (Option (Request T X))) : Prop :=
  ∀ c s, st.reverse[2 * c]? = some s → 2 * c + a ≤ st.length → Requested an c s (2 * c + a < st.length)

theorem reverse_cons_lt {α : Type} (x : α) (l : List α) (i : Nat) (h : i < l.length) : (x :: l).reverse[i]? = l.reverse[i]? := by
  rw [List.reverse_cons, List.getElem?_append_left (by simpa using h)]

theorem reverse_cons_eq {α : Type} (x : α) (l : List α) : (x :: l).reverse[l.length]? = some x := by
  rw [List.reverse_cons, List.getElem?_append_right (by simp)]; simp

theorem requested_set_ne {an : List (Option (Request T X))} {c n : Nat} {s : Segment T X} {P Q : Prop} {r : Option (Request T X)} (h : Requested an c s P)
    (hn : c ≠ n) (hPQ : Q → P) : Requested (an.set n r) c s Q := by
  obtain ⟨r', h1, h2, h3⟩ := h
  exact ⟨r', by rw [List.getElem?_set_ne (by omega)]; exact h1, h2, fun hq => h3 (hPQ hq)⟩

/-- The coast before a manœuvre. -/
theorem coastPart_requests {E : Engine T M B} {strict : Bool} {env : Env T M B X} (hI : Integrator env) {m : Manoeuvre M B X} {p : Plan T M B X}
    {overall : Status} {p₁ : Plan T M B X} {m₁ : Manoeuvre M B X} {o₁ : Status} (hC : Computing E strict p overall)
    (he : p.analysisIsEnabled = true) (hL : LoopRequests p.stack p.anomalous p.analysers)
    (h : coastPart E env m p overall = some (p₁, m₁, o₁)) : AllRequests p₁.stack p₁.anomalous p₁.analysers := by
  obtain ⟨a1, a2, a3, _, _, _, ⟨top, top', r, e1, e2, e3⟩, _, _, k1, k2, _⟩ := coastPart_spec hI hC h
  have hlen := hC.flown.length
  rw [List.length_reverse, e1, List.length_cons] at hlen
  by_cases ha : p.anomalous = 0
  · obtain ⟨ha1, k3⟩ := k2 ha
    obtain ⟨f, l, f1, f2, f3, f4⟩ := k3 he
    intro c s hs hc
    rw [e2, List.length_cons] at hc
    rw [e2] at hs
    by_cases hcn : c = p.manoeuvres.length
    · subst hcn
      rw [show 2 * p.manoeuvres.length = r.length by omega, reverse_cons_eq] at hs
      obtain rfl := Option.some.inj hs
      refine ⟨_, by rw [f4, List.getElem?_set_self f3], ?_, fun _ => ?_⟩
      · rw [← f1]; unfold Plan.front; rw [e2]; rfl
      · have : p₁.back = top'.getLast? := by unfold Plan.back; rw [e2]; rfl
        rw [← this, f2]; rfl
    · have hlt : 2 * c < r.length := by
        have := (List.getElem?_eq_some_iff.1 hs).1
        simp at this; omega
      rw [reverse_cons_lt _ _ _ hlt] at hs
      rw [f4]
      refine requested_set_ne (hL c s (fun _ => ?_) ?_ ?_) hcn ?_
      · rw [e1, List.length_cons]; omega
      · rw [e1, reverse_cons_lt _ _ _ hlt]; exact hs
      · rw [e1, List.length_cons, ha]; omega
      · intro _; rw [e1, List.length_cons, ha]; omega
  · rw [k1 ha]
    exact fun c s hs hc => hL c s (fun h0 => absurd h0 ha) hs hc

theorem computeLoop_requests {E : Engine T M B} {strict : Bool} {env : Env T M B X} (hI : Integrator env) {ms : List (Manoeuvre M B X)}
    {p p' : Plan T M B X} {o o' : Status} (hC : Computing E strict p o) (he : p.analysisIsEnabled = true)
    (hL : LoopRequests p.stack p.anomalous p.analysers) (h : computeLoop E env ms p o = some (p', o')) :
    LoopRequests p'.stack p'.anomalous p'.analysers := by
  induction ms generalizing p o with
  | nil =>
    simp only [computeLoop, Option.some.injEq, Prod.mk.injEq] at h
    obtain ⟨rfl, rfl⟩ := h
    exact hL
  | cons m ms ih =>
    unfold computeLoop at h
    obtain ⟨⟨p1, m1, o1⟩, hc, h⟩ := Option.bind_eq_some_iff.1 h
    obtain ⟨p2, h2, h⟩ := Option.bind_eq_some_iff.1 h
    obtain ⟨⟨p3, o3⟩, h3, h⟩ := Option.bind_eq_some_iff.1 h
    obtain ⟨p4, h4, h⟩ := Option.bind_eq_some_iff.1 h
    have hA := coastPart_requests hI hC he hL hc
    obtain ⟨a1, a2, a3, a4, a5, a6, _, a7, a8, _⟩ := coastPart_spec hI hC hc
    have a7' : p1.anomalous = 0 → ∃ x, m1.dof = some x ∧ p1.back = some (initialTime E m1, x) := by
      intro h0
      have := a7 h0
      unfold initialTime at this ⊢
      rwa [a5, a6]
    obtain ⟨b1, b2, b3, b4, b5, ⟨b, q, b6⟩, b7, b8⟩ := burnPart_spec hI a1 a7' a8 h2 h3 h4
    refine ih b1 ?_ ?_ h
    · show p4.analysisIsEnabled = true
      rw [b2.enabled]; exact a2.enabled.trans he
    · show LoopRequests p4.stack p4.anomalous p4.analysers
      have hodd := a1.flown.length
      rw [List.length_reverse] at hodd
      intro c s h0 hs hc
      rw [b6, List.length_cons, List.length_cons] at h0 hc ⊢
      have hcases : p4.anomalous = 0 ∧ p1.anomalous = 0 ∨ p4.anomalous = p1.anomalous + 2 := by
        by_cases hz : p1.anomalous = 0
        · rcases b8 hz with hz' | hz'
          · exact Or.inl ⟨hz', hz⟩
          · exact Or.inr (by rw [hz', hz])
        · exact Or.inr (b7 hz)
      have hlt : 2 * c < p1.stack.length := by
        rcases hcases with ⟨e1, _⟩ | e1
        · have := h0 e1; omega
        · by_cases hz : p1.anomalous = 0
          · omega
          · omega
      rw [b6, reverse_cons_lt _ _ _ (by simp; omega), reverse_cons_lt _ _ _ hlt] at hs
      obtain ⟨r, r1, r2, r3⟩ := hA c s hs (by rcases hcases with ⟨_, e1⟩ | e1 <;> omega)
      rw [b5]
      refine ⟨r, r1, r2, fun hh => r3 ?_⟩
      rcases hcases with ⟨_, e1⟩ | e1 <;> omega

theorem lastCoast_requests {E : Engine T M B} {strict : Bool} {env : Env T M B X} (hI : Integrator env)
    {p p' : Plan T M B X} {o s : Status} (hC : Computing E strict p o) (hA : p.analysers.length = p.manoeuvres.length + 1)
    (he : p.analysisIsEnabled = true) (hL : LoopRequests p.stack p.anomalous p.analysers)
    (h : lastCoast env p o = some (s, p')) : AllRequests p'.stack p'.anomalous p'.analysers := by
  obtain ⟨c, r, q, l, hst, hc, hq, hb, hl, hfr⟩ := back_of_flown hC.flown
  have hlen := hC.flown.length
  rw [List.length_reverse, hst, List.length_cons] at hlen
  unfold lastCoast at h
  split at h
  · rename_i ha
    obtain ⟨q', hq', h⟩ := Option.bind_eq_some_iff.1 h
    obtain rfl : q = q' := by rw [hb] at hq'; exact Option.some.inj hq'
    obtain ⟨p2, hp2, h⟩ := Option.bind_eq_some_iff.1 h
    obtain ⟨⟨s', p3⟩, hcs, h⟩ := Option.map_eq_some_iff.1 h
    simp only [Prod.mk.injEq] at h
    obtain ⟨rfl, rfl⟩ := h
    obtain ⟨an, rfl, hanlen, _, hen⟩ := requestLast_spec hp2
    obtain ⟨c', rfl, k1, k2, k3, k4⟩ :=
      coastSegment_spec (p := { p with desiredFinalTime := max p.desiredFinalTime q.1, analysers := an }) hI hst hc hcs
    obtain ⟨f, hf, hlt, rfl⟩ := hen he
    have hf' : c.head? = some f := by
      have : p.front = some f := hf
      unfold Plan.front at this; rw [hst] at this; exact this
    have hgoal : ∀ a', (s' = .ok ∧ a' = 0 ∨ a' = 1) →
        AllRequests (c' :: r) a' (p.analysers.set (p.analysers.length - 1) (some ⟨f, max p.desiredFinalTime q.1, none⟩)) := by
      intro a' ha' i u hu hi
      rw [List.length_cons] at hi ⊢
      by_cases hin : i = p.manoeuvres.length
      · subst hin
        rw [show 2 * p.manoeuvres.length = r.length by omega, reverse_cons_eq] at hu
        obtain rfl := Option.some.inj hu
        refine ⟨_, by rw [hA, Nat.add_sub_cancel, List.getElem?_set_self (by omega)], k2.trans hf', fun hh => ?_⟩
        rcases ha' with ⟨hs, _⟩ | hs
        · exact k3 hs
        · omega
      · have hlt : 2 * i < r.length := by
          have := (List.getElem?_eq_some_iff.1 hu).1
          simp at this; omega
        rw [reverse_cons_lt _ _ _ hlt] at hu
        refine requested_set_ne (hL i u (fun _ => ?_) ?_ ?_) (by omega) ?_
        · rw [hst, List.length_cons]; omega
        · rw [hst, reverse_cons_lt _ _ _ hlt]; exact hu
        · rw [hst, List.length_cons, ha]; omega
        · intro _; rw [hst, List.length_cons, ha]; omega
    by_cases hs : s' = .ok
    · subst hs
      rw [failIf_ok]
      exact hgoal p.anomalous (Or.inl ⟨rfl, ha⟩)
    · rw [failIf_ne _ _ hs]
      exact hgoal 1 (Or.inr rfl)
  · rename_i ha
    simp only [Option.some.injEq, Prod.mk.injEq] at h
    obtain ⟨rfl, rfl⟩ := h
    exact fun c s hs hc => hL c s (fun h0 => absurd h0 ha) hs hc

theorem computeSegments_requests {E : Engine T M B} {strict : Bool} {env : Env T M B X} (hI : Integrator env) {i : Nat}
    {p p' : Plan T M B X} {s : Status} (hR : Ready E strict i p)
    (hL : p.analysisIsEnabled = true → LoopRequests p.stack p.anomalous p.analysers) (h : computeSegments E env i p = some (s, p'))
    (he : p'.analysisIsEnabled = true) : AllRequests p'.stack p'.anomalous p'.analysers := by
  have he' : p.analysisIsEnabled = true := (computeSegments_spec hI hR h).2.1.enabled.symm.trans he
  unfold computeSegments at h
  split at h
  · exact absurd h (by simp)
  · simp only at h
    obtain ⟨⟨p2, o⟩, hl, h⟩ := Option.bind_eq_some_iff.1 h
    have key : ∀ (p₀ : Plan T M B X), p₀ = (if p.anomalous = 0 then { p with status := .ok } else p) →
        Computing E strict { p₀ with manoeuvres := p₀.manoeuvres.take i } p₀.status ∧ Same p p₀ ∧
          p₀.manoeuvres = p.manoeuvres ∧ p₀.desiredFinalTime = p.desiredFinalTime ∧ LoopRequests p₀.stack p₀.anomalous p₀.analysers := by
      intro p₀ he
      by_cases ha : p.anomalous = 0
      · rw [if_pos ha] at he
        subst he
        exact ⟨⟨hR.flown, fun _ => rfl, fun _ hh => absurd ha hh, by simp, rfl⟩, ⟨rfl, rfl, rfl, rfl, rfl⟩, rfl, rfl, hL he'⟩
      · rw [if_neg ha] at he
        subst he
        exact ⟨⟨hR.flown, fun hh => absurd hh ha, hR.anomaly, hR.range, rfl⟩, Same.refl _, rfl, rfl, hL he'⟩
    obtain ⟨k1, k2, k3, k4, k5⟩ := key _ rfl
    obtain ⟨a1, a2, a3, a4⟩ := computeLoop_spec hI k1 hl
    have hlen : p2.analysers.length = p2.manoeuvres.length + 1 := by
      have e1 : p2.analysers.length = p.analysers.length := by
        rw [a2.length]; exact k2.length
      have e2 := congrArg List.length a4
      rw [List.length_map, List.length_map, List.take_append_drop, k3] at e2
      rw [e1, hR.analysers, e2]
    have hen : p2.analysisIsEnabled = true := a2.enabled.trans (k2.enabled.trans he')
    exact lastCoast_requests hI a1 hlen hen (computeLoop_requests hI k1 (k2.enabled.trans he') k5 hl) h

/-- Popping and resetting segments preserves the requests, even if analysers are inserted or erased after the corresponding coast. -/
theorem loopRequests_pop {E : Engine T M B} {q₀ : T × X} {ms : List (Manoeuvre M B X)} {st : List (Segment T X)} {a k : Nat}
    {an an' : List (Option (Request T X))} (hF : Flown E q₀ ms st a) (hA : AllRequests st a an) (hk : k ≤ ms.length)
    (han : ∀ c, c ≤ ms.length - k → an'[c]? = an[c]?) :
    LoopRequests (((st.drop (2 * k)).head?.getD []).take 1 :: (st.drop (2 * k)).tail) (if a - 2 * k = 1 then 0 else a - 2 * k) an' := by
  have hlen := hF.length
  have hle := anomalous_le hF
  intro c s h0 hs hc
  have htail : (st.drop (2 * k)).tail.length = 2 * (ms.length - k) := by rw [List.length_tail, List.length_drop]; omega
  rw [List.length_cons, htail] at h0 hc ⊢
  have hlt : 2 * c < 2 * (ms.length - k) := by
    by_cases hz : a - 2 * k = 0 ∨ a - 2 * k = 1
    · have := h0 (by split <;> omega); omega
    · rw [if_neg (by omega)] at hc; omega
  rw [reverse_cons_lt _ _ _ (by omega)] at hs
  have hs' : st.reverse[2 * c]? = some s := by
    rw [← hs, List.tail_drop, show 2 * k + 1 = st.length - (2 * (ms.length - k)) by omega, ← List.take_reverse,
      List.getElem?_take_of_lt (by omega)]
  have hb : 2 * c + a < st.length ∨ 2 * c + a = st.length ∧ 2 ≤ a - 2 * k := by split at hc <;> omega
  obtain ⟨r, r1, r2, r3⟩ := hA c s hs' (by omega)
  refine ⟨r, by rw [han c (by omega)]; exact r1, r2, fun hh => r3 ?_⟩
  rcases hb with hb | ⟨hb, hb'⟩
  · exact hb
  · rw [if_neg (by omega)] at hh; omega

theorem requests_reachable {E : Engine T M B} {p : Plan T M B X} (h : Reachable E false p) (he : p.analysisIsEnabled = true) :
    AllRequests p.stack p.anomalous p.analysers := by
  have hdrop : ∀ {p : Plan T M B X}, Reachable E false p → (p.analysisIsEnabled = true → AllRequests p.stack p.anomalous p.analysers) → ∀ k ≤ p.manoeuvres.length,
      ∀ an', (∀ c, c ≤ p.manoeuvres.length - k → an'[c]? = p.analysers[c]?) → p.analysisIsEnabled = true →
      LoopRequests (((p.stack.drop (2 * k)).head?.getD []).take 1 :: (p.stack.drop (2 * k)).tail)
        (if p.anomalous - 2 * k = 1 then 0 else p.anomalous - 2 * k) an' := by
    intro p hr hA k hk an' han he
    refine loopRequests_pop (wf_reachable hr).flown (hA he) (by simpa using hk) ?_
    rw [List.length_reverse]
    exact han
  have makeCase : ∀ {env : Env T M B X} {mass t x d} {p : Plan T M B X}, Integrator env → make E env mass t x d = some p →
      p.analysisIsEnabled = true → AllRequests p.stack p.anomalous p.analysers := by
    intro env mass t x d p hI h he
    unfold make at h
    split at h
    · obtain ⟨⟨s, p'⟩, h', rfl⟩ := Option.map_eq_some_iff.1 h
      have hR : Ready E true 0 (⟨mass, t, x, d, [[(t, x)]], 0, .ok, [], [none], true⟩ : Plan T M B X) :=
        ⟨.start ⟨by simp, by simp⟩ rfl (by simp), by simp, by simp, rfl⟩
      refine computeSegments_requests hI hR (fun _ c s h0 _ _ => ?_) h' he
      have := h0 rfl
      simp at this
    · exact absurd h (by simp)
  induction h with
  | make hI h => exact makeCase hI h he
  | read hI hI' h =>
    rename_i env env' msg p'
    unfold read at h
    obtain ⟨p1, h1, h⟩ := Option.bind_eq_some_iff.1 h
    obtain ⟨⟨s, p2⟩, h', rfl⟩ := Option.map_eq_some_iff.1 h
    obtain ⟨hW, k1, k2, k3, k4, k5, k6⟩ := wf_make (strict := true) hI h1
    have hlen := hW.flown.length
    rw [List.length_reverse, k2] at hlen
    unfold recomputeAllSegments at h'
    simp only at h'
    rw [show (p1.stack.length : Int) - 1 = ((2 * 0 : Nat) : Int) by rw [hlen]; simp, popLastSegments_spec _ _ (by omega), Option.bind_some] at h'
    have hfl := hW.flown
    rw [k2] at hfl
    obtain ⟨r1, r2⟩ := resetLastSegment_spec (ms := []) (p := ({ p1 with
        manoeuvres := p1.manoeuvres ++ msg.manoeuvres.map fun m => ⟨m.1, m.2, none⟩,
        analysers := p1.analysers ++ msg.manoeuvres.map fun _ => none,
        stack := p1.stack.drop (2 * 0), anomalous := p1.anomalous - 2 * 0 } : Plan T M B X)) hfl
    rw [r1, Option.bind_some] at h'
    have hR : Ready E true 0 (({ p1 with
        manoeuvres := p1.manoeuvres ++ msg.manoeuvres.map fun m => ⟨m.1, m.2, none⟩,
        analysers := p1.analysers ++ msg.manoeuvres.map fun _ => none,
        stack := p1.stack.drop (2 * 0), anomalous := p1.anomalous - 2 * 0 } : Plan T M B X).reset) := by
      refine ⟨r2, fun hs hne => ?_, hW.range, ?_⟩
      · have := reset_anomaly hne
        exact hW.anomaly hs this
      · show (p1.analysers ++ _).length = (p1.manoeuvres ++ _).length + 1
        rw [List.length_append, List.length_append, List.length_map, List.length_map, hW.analysers]; omega
    refine computeSegments_requests hI' hR (fun _ => ?_) h' he
    refine hdrop (.make hI h1) (makeCase hI h1) 0 (by omega) _ (fun c hc => ?_) k5
    have : c < p1.analysers.length := by rw [hW.analysers]; omega
    exact List.getElem?_append_left this
  | insert h0 hI h ih =>
    rename_i env burn i p s p'
    have hW := wf_reachable h0
    rcases (insert_cases h).2 with ⟨rfl, _⟩ | ⟨_, mass, a, b, hm, ha, hb, hf, hc⟩
    · exact ih he
    · obtain ⟨p1, h1, h2⟩ := Option.bind_eq_some_iff.1 hc
      have hi := (insert_cases h).1
      obtain ⟨p2, e1, e2, e3, e4, e5, e6, e7, e8, e9⟩ := ready_of_pop hW hi p.desiredFinalTime
        (updateInitialMassAfter E i (p.manoeuvres.insertIdx i ⟨mass, burn, none⟩))
        (p.analysers.insertIdx (i + 1) none) (by rw [updateInitialMassAfter_take, insertIdx_take _ _ _ hi])
        (by rw [updateInitialMassAfter_length, List.length_insertIdx_of_le_length hi,
              List.length_insertIdx_of_le_length (by rw [hW.analysers]; omega), hW.analysers])
      obtain rfl : p1 = p2 := Option.some.inj (h1.symm.trans e1)
      refine computeSegments_requests hI e2 (fun he' => ?_) h2 he
      rw [e8, e9, e4]
      refine hdrop h0 ih (p.manoeuvres.length - i) (by omega) _ (fun c hc => ?_) (e6.symm.trans he')
      rw [List.getElem?_insertIdx_of_lt (by omega)]
  | remove h0 hI h ih =>
    rename_i env i p s p'
    have hW := wf_reachable h0
    unfold remove at h
    split at h
    · rename_i hi
      obtain ⟨p1, h1, h2⟩ := Option.bind_eq_some_iff.1 h
      obtain ⟨p2, e1, e2, e3, e4, e5, e6, e7, e8, e9⟩ := ready_of_pop hW hi.le p.desiredFinalTime (updateInitialMassAfter E i (p.manoeuvres.eraseIdx i))
        (p.analysers.eraseIdx (i + 1)) (by rw [updateInitialMassAfter_take, eraseIdx_take])
        (by rw [updateInitialMassAfter_length, List.length_eraseIdx_of_lt hi, List.length_eraseIdx_of_lt (by rw [hW.analysers]; omega),
              hW.analysers]; omega)
      obtain rfl : p1 = p2 := Option.some.inj (h1.symm.trans e1)
      refine computeSegments_requests hI e2 (fun he' => ?_) h2 he
      rw [e8, e9, e4]
      refine hdrop h0 ih (p.manoeuvres.length - i) (by omega) _ (fun c hc => ?_) (e6.symm.trans he')
      rw [List.getElem?_eraseIdx_of_lt (by omega)]
    · exact absurd h (by simp)
  | replace h0 hI h ih =>
    rename_i env burn i p s p'
    have hW := wf_reachable h0
    have main : ∀ (m : Manoeuvre M B X) (d : T), i < p.manoeuvres.length → replaceAt E env m i { p with desiredFinalTime := d } = some (s, p') →
        AllRequests p'.stack p'.anomalous p'.analysers := by
      intro m d hi h
      unfold replaceAt at h
      obtain ⟨p1, h1, h2⟩ := Option.bind_eq_some_iff.1 h
      obtain ⟨p2, e1, e2, e3, e4, e5, e6, e7, e8, e9⟩ := ready_of_pop hW hi.le d (updateInitialMassAfter E i (p.manoeuvres.set i m))
        p.analysers (by rw [updateInitialMassAfter_take, List.take_set_of_le le_rfl])
        (by rw [updateInitialMassAfter_length, List.length_set, hW.analysers])
      obtain rfl : p1 = p2 := Option.some.inj (h1.symm.trans e1)
      refine computeSegments_requests hI e2 (fun he' => ?_) h2 he
      rw [e8, e9, e4]
      exact hdrop h0 ih (p.manoeuvres.length - i) (by omega) _ (fun c hc => rfl) (e6.symm.trans he')
    unfold replace at h
    obtain ⟨old, hold, h⟩ := Option.bind_eq_some_iff.1 h
    have hi : i < p.manoeuvres.length := (List.getElem?_eq_some_iff.1 hold).1
    split at h
    · simp only [Option.some.injEq, Prod.mk.injEq] at h
      obtain ⟨rfl, rfl⟩ := h
      exact ih he
    · obtain ⟨a, ha, h⟩ := Option.bind_eq_some_iff.1 h
      split at h
      · split at h
        · exact main _ _ hi h
        · simp only [Option.some.injEq, Prod.mk.injEq] at h
          obtain ⟨rfl, rfl⟩ := h
          exact ih he
      · obtain ⟨b, hb, h⟩ := Option.bind_eq_some_iff.1 h
        split at h
        · simp only [Option.some.injEq, Prod.mk.injEq] at h
          obtain ⟨rfl, rfl⟩ := h
          exact ih he
        · exact main _ p.desiredFinalTime hi h
  | setDesiredFinalTime h0 hI h ih =>
    rename_i env t p s p'
    have hW := wf_reachable h0
    unfold setDesiredFinalTime at h
    split at h
    · simp only [Option.some.injEq, Prod.mk.injEq] at h
      obtain ⟨rfl, rfl⟩ := h
      exact ih he
    · obtain ⟨p1, h1, h2⟩ := Option.bind_eq_some_iff.1 h
      obtain ⟨r1, r2⟩ := ready_of_reset (i := p.manoeuvres.length) (q := { p with desiredFinalTime := t }) hW
        ⟨p.stack, p.anomalous, t, rfl, le_rfl, by rw [List.take_length]; exact hW.flown⟩
      obtain rfl : p1 = _ := Option.some.inj (h1.symm.trans r1)
      refine computeSegments_requests hI r2 (fun he' => ?_) h2 he
      exact hdrop h0 ih 0 (by omega) _ (fun c hc => rfl) he'
  | setAdaptiveStepParameters h0 hI h ih =>
    rename_i env p s p'
    have hW := wf_reachable h0
    have hlen := hW.flown.length
    rw [List.length_reverse] at hlen
    unfold recomputeAllSegments at h
    rw [show (p.stack.length : Int) - 1 = ((2 * p.manoeuvres.length : Nat) : Int) by rw [hlen]; push_cast; omega,
      popLastSegments_spec _ _ (by omega), Option.bind_some] at h
    have hpop := hW.flown.pops p.manoeuvres.length (by simp)
    rw [List.drop_eq_nil_of_le (by simp)] at hpop
    obtain ⟨r1, r2⟩ := ready_of_reset (i := 0) hW
      (q := { p with stack := p.stack.drop (2 * p.manoeuvres.length), anomalous := p.anomalous - 2 * p.manoeuvres.length })
      ⟨_, _, p.desiredFinalTime, rfl, by omega, hpop⟩
    rw [r1, Option.bind_some] at h
    refine computeSegments_requests hI r2 (fun he' => ?_) h he
    exact hdrop h0 ih p.manoeuvres.length (by omega) _ (fun c hc => rfl) he'
  | avoidDeadline h0 hI h ih =>
    rename_i env p s p'
    have hW := wf_reachable h0
    unfold avoidDeadline at h
    split at h
    · simp only [Option.some.injEq, Prod.mk.injEq] at h
      obtain ⟨rfl, rfl⟩ := h
      exact ih he
    · split at h
      · exact absurd h (by simp)
      · rename_i hle
        have hn : p.anomalous / 2 ≤ p.manoeuvres.length := not_lt.1 hle
        rw [popManoeuvres_spec _ _ hW.flown (by rw [List.length_reverse]; exact hn), Option.bind_some] at h
        have hpop := hW.flown.pops (p.anomalous / 2) (by rw [List.length_reverse]; exact hn)
        rw [List.drop_reverse] at hpop
        obtain ⟨r1, r2⟩ := ready_of_reset (i := p.manoeuvres.length - p.anomalous / 2) hW
          (q := { p with stack := p.stack.drop (2 * (p.anomalous / 2)), anomalous := p.anomalous - 2 * (p.anomalous / 2) })
          ⟨_, _, p.desiredFinalTime, rfl, by omega, hpop⟩
        rw [r1, Option.bind_some] at h
        refine computeSegments_requests hI r2 (fun he' => ?_) h he
        exact hdrop h0 ih (p.anomalous / 2) hn _ (fun c hc => rfl) he'
  | enableAnalysis h0 ih =>
    rename_i b p
    have hW := wf_reachable h0
    unfold enableAnalysis at he ⊢
    by_cases hb : b = p.analysisIsEnabled
    · rw [if_pos hb] at he ⊢
      exact ih he
    · rw [if_neg hb] at he ⊢
      cases b with
      | false => simp at he
      | true =>
        simp only [if_true]
        intro c s hs hc
        have hlen := hW.flown.length
        rw [List.length_reverse] at hlen
        have hc2 : 2 * c < p.stack.length := by
          have := (List.getElem?_eq_some_iff.1 hs).1
          rwa [List.length_reverse] at this
        have hlt : c < p.analysers.length := by rw [hW.analysers]; omega
        obtain ⟨f, hf⟩ : ∃ f, s.head? = some f := by
          cases hh : s.head? with
          | some f => exact ⟨f, rfl⟩
          | none =>
            have := (consistent_of_flown hW.flown).path s (List.mem_of_getElem? hs)
            exact absurd (List.head?_eq_none_iff.1 hh) this.1
        obtain ⟨l, hl⟩ : ∃ l, s.getLast? = some l := by
          cases hh : s.getLast? with
          | some l => exact ⟨l, rfl⟩
          | none =>
            have := (consistent_of_flown hW.flown).path s (List.mem_of_getElem? hs)
            exact absurd (List.getLast?_eq_none_iff.1 hh) this.1
        refine ⟨⟨f, l.1, some p.desiredFinalTime⟩, ?_, hf, fun _ => by rw [hl]; rfl⟩
        rw [List.getElem?_mapIdx, List.getElem?_eq_getElem hlt, Option.map_some, if_pos (by omega)]
        unfold enableRequest
        rw [hs, Option.bind_some, hf, Option.bind_some, hl, Option.map_some]
  | copy _ hc => exact absurd hc (by simp)

/-- **C49.**  If analysis is enabled, an analysis has been requested for each coast that is not anomalous, and for the first anomalous segment if it is a
coast.  It starts at the initial state of the coast and, if the coast is not anomalous, ends at its final time.  It is the one returned by `analysis`.
This doesn't hold for copies, see `C34_analysis_counterexample`. -/
theorem C49_requests (E : Engine T M B) (p : Plan T M B X) (h : Reachable E false p) (he : p.analysisIsEnabled = true) (c : Nat) (s : Segment T X)
    (hs : p.getSegment (2 * c) = some s) (hc : 2 * c + p.anomalous ≤ p.numberOfSegments) :
    ∃ r, p.analysis c = some r ∧ s.head? = some r.first ∧
      (2 * c + p.anomalous < p.numberOfSegments → s.getLast?.map Prod.fst = some r.missionEnd) := by
  obtain ⟨r, h1, h2, h3⟩ := requests_reachable h he c s hs hc
  have hlen := (wf_reachable h).flown.length
  rw [List.length_reverse] at hlen
  refine ⟨r, ?_, h2, h3⟩
  have hc' : 2 * c + p.anomalous ≤ 2 * p.manoeuvres.length + 1 := by rw [← hlen]; exact hc
  have hc2 : 2 * c < 2 * p.manoeuvres.length + 1 := by
    have := (List.getElem?_eq_some_iff.1 hs).1
    unfold Plan.segments at this
    rw [List.length_reverse, hlen] at this
    exact this
  unfold Plan.analysis Plan.numberOfAnomalousManoeuvres
  rw [if_neg, h1]
  · rfl
  · by_cases ha : p.anomalous = 0
    · rw [ha]
      have : Int.tdiv ((0 : Nat) - 1 : Int) 2 = 0 := by decide
      rw [this]; omega
    · rw [Int.tdiv_eq_ediv_of_nonneg (by omega)]; omega

/-- The hypotheses hold for the coast that precedes the failed burn. -/
example : failed₂.2.analysisIsEnabled = true ∧ failed₂.2.getSegment 2 = some [(15, 2), (20, 3)] ∧ 2 * 1 + failed₂.2.anomalous ≤ failed₂.2.numberOfSegments ∧
    failed₂.2.analysis 1 = some ⟨(15, 2), 20, some 50⟩ := by decide +kernel

/-- The change of the parameters, with a failure of the second burn. -/
def failedAgain : Status × ExPlan := (recomputeAllSegments exEngine (otherFailAt 4 .deadlineExceeded) inserted₂.2).get (by decide +kernel)

theorem failedAgain_eq : recomputeAllSegments exEngine (otherFailAt 4 .deadlineExceeded) inserted₂.2 = some failedAgain := (Option.some_get _).symm

/-- **C49.**  The coast that follows an anomalous burn has no valid initial state, and its analysis should not be available, but `analysis` returns one if one
had been performed before the anomaly, because the manœuvre is not counted as anomalous.  Here the last segment has been reduced to a point that has degrees
of freedom 21 at time 20, but the analysis is for a coast starting at time 25 with degrees of freedom 4, which belongs to a trajectory that no longer
exists. -/
theorem C49_stale_counterexample : ∃ (E : Engine Int Int (Int × Int)) (p : ExPlan), Reachable E false p ∧ p.analysisIsEnabled = true ∧
    p.manoeuvres.length = 2 ∧ p.anomalous = 2 ∧ p.getSegment 4 = some [(20, 21)] ∧ p.analysis 2 = some ⟨(25, 4), 50, none⟩ := by
  refine ⟨exEngine, failedAgain.2, ?_, by decide +kernel⟩
  exact .setAdaptiveStepParameters (s := failedAgain.1) (inserted₂_reachable _) (otherFailAt_integrator 4 .deadlineExceeded (by simp) (by simp)) failedAgain_eq

/-- The same for the extended mission: the final time has been changed, but the analyses of the coasts other than the last one are for the old one. -/
theorem C49_extended_mission_counterexample : ∃ (E : Engine Int Int (Int × Int)) (p : ExPlan), Reachable E false p ∧ p.analysisIsEnabled = true ∧
    p.anomalous = 0 ∧ p.desiredFinalTime = 60 ∧ (p.analysis 0).map (fun r => r.extendedEnd) = some (some 50) := by
  have h : ((setDesiredFinalTime exEngine okEnv 60 inserted₂.2).map fun r => (r.2.analysisIsEnabled, r.2.anomalous, r.2.desiredFinalTime,
      (r.2.analysis 0).map fun r => r.extendedEnd)) = some (true, 0, 60, some (some 50)) := by decide +kernel
  obtain ⟨⟨s, p⟩, h1, h2⟩ := Option.map_eq_some_iff.1 h
  simp only [Prod.mk.injEq] at h2
  exact ⟨exEngine, p, .setDesiredFinalTime (inserted₂_reachable _) okEnv_integrator h1, h2.1, h2.2.1, h2.2.2.1, h2.2.2.2⟩

end Principia.FlightPlan
