import Verif.Ksp.FlightPlanLemmas

set_option linter.unusedSimpArgs false
set_option linter.unusedVariables false
set_option linter.unusedSectionVars false

/-!
The properties of flight plans, C31 to C34.
-/

namespace Principia.FlightPlan

open Spec

variable {T M B X : Type} [LinearOrder T]

/-! ## C31: structure -/

/-- **C31.**  Whatever the operations and the outcomes of the integrations, the segments are consistent with the manœuvres: they alternate coasts and burns,
they are contiguous, they start and end at the times of the manœuvres, except the anomalous ones; the segments that follow the first anomalous one are
single points.  There is an analyser for each coast.  If there is no anomaly the plan reaches its desired final time; the status tells whether there is an
anomaly, except for copies (see C34). -/
theorem C31_structure (E : Engine T M B) (copies : Bool) (p : Plan T M B X) (h : Reachable E copies p) :
    Consistent E (p.initialTime, p.initialDof) p.manoeuvres p.segments p.anomalous ∧
      p.analysers.length = p.manoeuvres.length + 1 ∧
      (p.anomalous = 0 → p.status = .ok ∧ p.actualFinalTime = some p.desiredFinalTime) ∧
      (p.anomalous ≠ 0 → copies = false → p.status ≠ .ok) := by
  have hW := wf_reachable h
  refine ⟨?_, hW.analysers, fun ha => ⟨hW.fine ha, hW.reached ha⟩, fun ha hc => hW.anomaly (by rw [hc]; rfl) ha⟩
  have := consistent_of_flown hW.flown
  rwa [List.reverse_reverse] at this

/-- **C31.**  The operations that change the flight plan return the status of its first anomalous segment. -/
theorem C31_returned_status (E : Engine T M B) (copies : Bool) (p p' : Plan T M B X) (h : Reachable E copies p) (env : Env T M B X)
    (hI : Integrator env) (s : Status) :
    (∀ burn i, insert E env burn i p = some (s, p') → s = p'.status ∨ p' = p ∧ (s = .outOfRange ∨ s = .invalidArgument)) ∧
      (∀ i, remove E env i p = some (s, p') → s = p'.status) ∧
      (∀ burn i, replace E env burn i p = some (s, p') → s = p'.status ∨ p' = p ∧ (s = .outOfRange ∨ s = .invalidArgument)) ∧
      (∀ t, setDesiredFinalTime E env t p = some (s, p') → s = p'.status ∨ p' = p ∧ s = .outOfRange) ∧
      (recomputeAllSegments E env p = some (s, p') → s = p'.status) ∧
      (avoidDeadline E env p = some (s, p') → s = p'.status ∨ p' = p ∧ s = .ok ∧ p.status ≠ .deadlineExceeded) := by
  have hW := wf_reachable h
  refine ⟨fun burn i h => ?_, fun i h => (remove_spec hI hW h).status, fun burn i h => ?_, fun t h => ?_, fun h => (recomputeAll_spec hI hW h).status,
    fun h => ?_⟩
  · rcases (insert_cases h).2 with ⟨rfl, hs⟩ | _
    · right
      refine ⟨rfl, ?_⟩
      rcases hs with ⟨hs, _⟩ | ⟨hs, _⟩
      · exact Or.inr hs
      · exact Or.inl hs
    · rename_i hr
      obtain ⟨_, mass, a, b, hm, ha, hb, hf, hc⟩ := hr
      left
      rcases insert_spec hI hW h with rfl | ⟨_, _, h⟩
      · obtain ⟨p1, h1, h2⟩ := Option.bind_eq_some_iff.1 hc
        obtain ⟨p2, e1, e2, _⟩ := ready_of_pop hW (insert_cases h).1 p'.desiredFinalTime (updateInitialMassAfter E i (p'.manoeuvres.insertIdx i ⟨mass, burn, none⟩))
          (p'.analysers.insertIdx (i + 1) none) (by rw [updateInitialMassAfter_take, insertIdx_take _ _ _ (insert_cases h).1])
          (by rw [updateInitialMassAfter_length, List.length_insertIdx_of_le_length (insert_cases h).1,
                List.length_insertIdx_of_le_length (by rw [hW.analysers]; have := (insert_cases h).1; omega), hW.analysers])
        obtain rfl : p1 = p2 := Option.some.inj (h1.symm.trans e1)
        exact (computeSegments_spec hI e2 h2).2.2.1
      · exact h.status
  · rcases replace_spec hI hW h with ⟨rfl, hs⟩ | ⟨_, _, h⟩
    · exact Or.inr ⟨rfl, hs.symm⟩
    · exact Or.inl h.status
  · rcases setDesiredFinalTime_spec hI hW h with ⟨rfl, hs, _⟩ | ⟨_, h, _⟩
    · exact Or.inr ⟨rfl, hs⟩
    · exact Or.inl h.status
  · rcases avoidDeadline_spec hI hW h with ⟨rfl, rfl, h0 | h0⟩ | h
    · exact Or.inl (hW.fine h0).symm
    · exact Or.inr ⟨rfl, rfl, h0⟩
    · exact Or.inl h.status

/-! ## C32: errors have no effect -/

/-- **C32.**  A burn that is singular, or that doesn't fit between the neighbouring manœuvres, is not inserted, and the plan doesn't change. -/
theorem C32_insert (E : Engine T M B) (env : Env T M B X) (burn : B) (i : Nat) (p : Plan T M B X) (hi : i ≤ p.manoeuvres.length) :
    (E.singular burn = true → insert E env burn i p = some (.invalidArgument, p)) ∧
      (E.singular burn = false → ∀ mass a b, massBefore E p i = some mass → coastStart E p i = some a → coastEnd E p i = some b →
        ¬ (a < E.initialTime mass burn ∧ E.finalTime mass burn < b) → insert E env burn i p = some (.outOfRange, p)) := by
  have e1 : insertionMass E i p = massBefore E p i := by
    unfold insertionMass massBefore
    cases i <;> simp
  have e2 : startOfPreviousCoast E p i = coastStart E p i := by
    unfold startOfPreviousCoast coastStart
    cases i with
    | zero => simp
    | succ i => simp; rfl
  have e3 : startOfBurn E p i = coastEnd E p i := by
    unfold startOfBurn coastEnd
    rcases Nat.lt_or_ge i p.manoeuvres.length with h | h
    · rw [if_neg (by omega), List.getElem?_eq_getElem h]; rfl
    · rw [List.getElem?_eq_none h]; split <;> rfl
  have hsome : ∃ mass, massBefore E p i = some mass := by
    cases i with
    | zero => exact ⟨_, rfl⟩
    | succ i => exact ⟨_, by show Option.map _ p.manoeuvres[i]? = _; rw [List.getElem?_eq_getElem (by omega)]; rfl⟩
  obtain ⟨mass', hm'⟩ := hsome
  unfold insert
  rw [if_pos hi, e1, hm', Option.bind_some]
  refine ⟨fun hs => by rw [if_pos hs], fun hs mass a b hm ha hb hf => ?_⟩
  obtain rfl := Option.some.inj hm
  rw [if_neg (by rw [hs]; simp), e2, ha, Option.bind_some, e3, hb, Option.bind_some, if_pos]
  unfold fitsBetween
  simpa using hf

/-- **C32.**  The same holds for replacements, except that the last manœuvre may extend the plan. -/
theorem C32_replace (E : Engine T M B) (env : Env T M B X) (burn : B) (i : Nat) (p : Plan T M B X) (old : Manoeuvre M B X)
    (hold : p.manoeuvres[i]? = some old) :
    (E.singular burn = true → replace E env burn i p = some (.invalidArgument, p)) ∧
      (E.singular burn = false → ∀ a, coastStart E p i = some a →
        ¬ a < E.initialTime old.mass burn → replace E env burn i p = some (.outOfRange, p)) ∧
      (E.singular burn = false → ∀ next, p.manoeuvres[i + 1]? = some next →
        ¬ E.finalTime old.mass burn < initialTime E next → replace E env burn i p = some (.outOfRange, p)) := by
  have e2 : startOfPreviousCoast E p i = coastStart E p i := by
    unfold startOfPreviousCoast coastStart
    cases i with
    | zero => simp
    | succ i => simp; rfl
  have hi : i < p.manoeuvres.length := (List.getElem?_eq_some_iff.1 hold).1
  have e3 : ∃ a, coastStart E p i = some a := by
    cases i with
    | zero => exact ⟨_, rfl⟩
    | succ i => exact ⟨_, by show Option.map _ p.manoeuvres[i]? = _; rw [List.getElem?_eq_getElem (by omega)]; rfl⟩
  have e4 : i + 1 ≠ p.manoeuvres.length → ∃ b, startOfBurn E p (i + 1) = some b := by
    intro hne
    unfold startOfBurn
    rw [if_neg hne, List.getElem?_eq_getElem (by omega)]; exact ⟨_, rfl⟩
  unfold replace
  rw [hold, Option.bind_some]
  refine ⟨fun hs => by rw [if_pos hs], fun hs a ha hlt => ?_, fun hs next hnext hlt => ?_⟩
  · rw [if_neg (by rw [hs]; simp), e2, ha, Option.bind_some]
    split
    · rw [if_neg]
      unfold isAfter
      simpa using hlt
    · rename_i hne
      obtain ⟨b, hb⟩ := e4 hne
      rw [hb, Option.bind_some, if_pos]
      unfold fitsBetween
      simp only [decide_eq_true_eq]
      exact fun h => hlt h.1
  · obtain ⟨a, ha⟩ := e3
    have hn : i + 1 < p.manoeuvres.length := (List.getElem?_eq_some_iff.1 hnext).1
    rw [if_neg (by rw [hs]; simp), e2, ha, Option.bind_some, if_neg (by omega)]
    have : startOfBurn E p (i + 1) = some (initialTime E next) := by
      unfold startOfBurn
      rw [if_neg (by omega), hnext]; rfl
    rw [this, Option.bind_some, if_pos]
    unfold fitsBetween
    simp only [decide_eq_true_eq]
    exact fun h => hlt h.2

/-- **C32.**  A final time before the end of the last manœuvre is rejected. -/
theorem C32_final_time (E : Engine T M B) (env : Env T M B X) (t : T) (p : Plan T M B X) (a : T) (ha : coastStart E p p.manoeuvres.length = some a)
    (h : t < a) : setDesiredFinalTime E env t p = some (.outOfRange, p) := by
  unfold setDesiredFinalTime
  rw [if_pos]
  unfold startOfLastCoast
  cases hn : p.manoeuvres.length with
  | zero =>
    rw [hn] at ha
    rw [List.eq_nil_of_length_eq_zero hn]
    unfold coastStart at ha
    obtain rfl := Option.some.inj ha
    exact h
  | succ n =>
    rw [hn] at ha
    unfold coastStart at ha
    rw [List.getLast?_eq_getElem?, hn, Nat.add_sub_cancel]
    obtain ⟨m, hm, rfl⟩ := Option.map_eq_some_iff.1 ha
    rw [hm]
    exact h

/-- **C32.**  Conversely, the operations that return `OutOfRange` had no effect: the integrations never fail with that status. -/
theorem C32_rejected (E : Engine T M B) (copies : Bool) (p p' : Plan T M B X) (h : Reachable E copies p) (env : Env T M B X) (hI : Integrator env) :
    (∀ burn i, insert E env burn i p = some (.outOfRange, p') → p' = p) ∧
      (∀ burn i, replace E env burn i p = some (.outOfRange, p') → p' = p) ∧
      (∀ t, setDesiredFinalTime E env t p = some (.outOfRange, p') → p' = p) ∧
      (∀ i, remove E env i p ≠ some (.outOfRange, p')) ∧
      recomputeAllSegments E env p ≠ some (.outOfRange, p') := by
  have hW := wf_reachable h
  refine ⟨fun burn i h => ?_, fun burn i h => ?_, fun t h => ?_, fun i h => ?_, fun h => ?_⟩
  · rcases insert_spec hI hW h with h | ⟨_, _, h⟩
    · exact h
    · exact absurd h.status.symm h.wf.range
  · rcases replace_spec hI hW h with ⟨h, _⟩ | ⟨_, _, h⟩
    · exact h
    · exact absurd h.status.symm h.wf.range
  · rcases setDesiredFinalTime_spec hI hW h with ⟨h, _⟩ | ⟨_, h, _⟩
    · exact h
    · exact absurd h.status.symm h.wf.range
  · have h := remove_spec hI hW h
    exact absurd h.status.symm h.wf.range
  · have h := recomputeAll_spec hI hW h
    exact absurd h.status.symm h.wf.range

theorem updateMasses_burns (E : Engine T M B) (mass : M) (ms : List (Manoeuvre M B X)) :
    (updateMasses E mass ms).map (fun m => m.burn) = ms.map fun m => m.burn := by
  induction ms generalizing mass with
  | nil => rfl
  | cons m ms ih => simp [updateMasses, ih]

theorem updateInitialMassAfter_burns (E : Engine T M B) (i : Nat) (ms : List (Manoeuvre M B X)) :
    (updateInitialMassAfter E i ms).map (fun m => m.burn) = ms.map fun m => m.burn := by
  unfold updateInitialMassAfter
  split
  · rfl
  · rename_i m rest h
    conv_rhs => rw [← List.take_append_drop i ms, h]
    simp [updateMasses_burns]

theorem burns_of_keys {p : Plan T M B X} {ms : List (Manoeuvre M B X)} (h : p.manoeuvres.map Manoeuvre.key = ms.map Manoeuvre.key) :
    burns p = ms.map fun m => m.burn := by
  have := congrArg (List.map Prod.snd) h
  rw [List.map_map, List.map_map] at this
  exact this

theorem map_insertIdx' {α β : Type} (f : α → β) (l : List α) (i : Nat) (x : α) : (l.insertIdx i x).map f = (l.map f).insertIdx i (f x) := by
  induction l generalizing i with
  | nil => cases i <;> simp
  | cons y l ih => cases i <;> simp [ih]

/-- **C32.**  The operations that are not rejected have the desired effect on the burns. -/
theorem C32_accepted (E : Engine T M B) (copies : Bool) (p p' : Plan T M B X) (s : Status) (h : Reachable E copies p) (env : Env T M B X)
    (hI : Integrator env) :
    (∀ burn i, insert E env burn i p = some (s, p') → p' = p ∧ (s = .outOfRange ∨ s = .invalidArgument ∧ E.singular burn = true) ∨
      burns p' = (burns p).insertIdx i burn) ∧
      (∀ burn i, replace E env burn i p = some (s, p') → p' = p ∧ (s = .outOfRange ∨ s = .invalidArgument) ∨ burns p' = (burns p).set i burn) ∧
      (∀ i, remove E env i p = some (s, p') → burns p' = (burns p).eraseIdx i) ∧
      (∀ t, setDesiredFinalTime E env t p = some (s, p') → p' = p ∧ s = .outOfRange ∨ keys p' = keys p ∧ t ≤ p'.desiredFinalTime) ∧
      (recomputeAllSegments E env p = some (s, p') → keys p' = keys p) ∧
      (avoidDeadline E env p = some (s, p') → keys p' = keys p) := by
  have hW := wf_reachable h
  refine ⟨fun burn i h => ?_, fun burn i h => ?_, fun i h => ?_, fun t h => ?_, fun h => ?_, fun h => ?_⟩
  · rcases (insert_cases h).2 with ⟨rfl, hs⟩ | hr
    · left
      refine ⟨rfl, ?_⟩
      rcases hs with ⟨h1, h2⟩ | ⟨h1, _⟩
      · exact Or.inr ⟨h1, h2⟩
      · exact Or.inl h1
    · right
      obtain ⟨_, mass, a, b, hm, ha, hb, hf, hc⟩ := hr
      obtain ⟨p1, h1, h2⟩ := Option.bind_eq_some_iff.1 hc
      have hi := (insert_cases h).1
      obtain ⟨p2, e1, e2, e3, _⟩ := ready_of_pop hW hi p.desiredFinalTime (updateInitialMassAfter E i (p.manoeuvres.insertIdx i ⟨mass, burn, none⟩))
        (p.analysers.insertIdx (i + 1) none) (by rw [updateInitialMassAfter_take, insertIdx_take _ _ _ hi])
        (by rw [updateInitialMassAfter_length, List.length_insertIdx_of_le_length hi,
              List.length_insertIdx_of_le_length (by rw [hW.analysers]; omega), hW.analysers])
      obtain rfl : p1 = p2 := Option.some.inj (h1.symm.trans e1)
      have hk := (computeSegments_spec hI e2 h2).2.2.2.1
      rw [burns_of_keys hk, e3, updateInitialMassAfter_burns, map_insertIdx']
      rfl
  · rcases replace_spec hI hW h with ⟨rfl, hs⟩ | ⟨_, _, h⟩
    · exact Or.inl ⟨rfl, hs.symm⟩
    · right
      rw [burns_of_keys h.keys_eq, updateInitialMassAfter_burns, List.map_set]
      rfl
  · have h := remove_spec hI hW h
    rw [burns_of_keys h.keys_eq, updateInitialMassAfter_burns, ← List.eraseIdx_map]
    rfl
  · rcases setDesiredFinalTime_spec hI hW h with ⟨rfl, hs, _⟩ | ⟨_, h, ht⟩
    · exact Or.inl ⟨rfl, hs⟩
    · exact Or.inr ⟨h.keys_eq, ht⟩
  · exact (recomputeAll_spec hI hW h).keys_eq
  · rcases avoidDeadline_spec hI hW h with ⟨rfl, _⟩ | h
    · rfl
    · exact h.keys_eq

/-! ## C33: the masses -/

theorem massChain_keys {E : Engine T M B} {mass : M} {ms ms' : List (Manoeuvre M B X)} (h : ms.map Manoeuvre.key = ms'.map Manoeuvre.key) :
    MassChain E mass ms ↔ MassChain E mass ms' := by
  induction ms generalizing mass ms' with
  | nil =>
    cases ms' with
    | nil => exact Iff.rfl
    | cons => simp at h
  | cons m ms ih =>
    cases ms' with
    | nil => simp at h
    | cons m' ms' =>
      rw [List.map_cons, List.map_cons, List.cons.injEq] at h
      obtain ⟨hk, h⟩ := h
      unfold Manoeuvre.key at hk
      obtain ⟨h1, h2⟩ := Prod.mk.inj hk
      unfold MassChain
      rw [h1, h2, ih h]

theorem massChain_append {E : Engine T M B} {mass : M} {ms ms' : List (Manoeuvre M B X)} :
    MassChain E mass (ms ++ ms') ↔
      MassChain E mass ms ∧ MassChain E ((ms.getLast?.map fun m => E.finalMass m.mass m.burn).getD mass) ms' := by
  induction ms generalizing mass with
  | nil => simp [MassChain]
  | cons m ms ih =>
    show (m.mass = mass ∧ MassChain E (E.finalMass m.mass m.burn) (ms ++ ms')) ↔
      (m.mass = mass ∧ MassChain E (E.finalMass m.mass m.burn) ms) ∧ _
    rw [ih, and_assoc]
    refine and_congr Iff.rfl (and_congr Iff.rfl ?_)
    cases ms with
    | nil => simp
    | cons m' ms => rw [List.getLast?_cons_cons]; simp [List.getLast?_cons]

theorem massChain_updateMasses (E : Engine T M B) (mass : M) (ms : List (Manoeuvre M B X)) : MassChain E mass (updateMasses E mass ms) := by
  induction ms generalizing mass with
  | nil => trivial
  | cons m ms ih => exact ⟨rfl, ih _⟩

/-- If the manœuvres up to the one at index `i` form a chain, the update extends it to all the manœuvres. -/
theorem massChain_update {E : Engine T M B} {mass : M} {i : Nat} {ms : List (Manoeuvre M B X)} (h : MassChain E mass (ms.take (i + 1))) :
    MassChain E mass (updateInitialMassAfter E i ms) := by
  unfold updateInitialMassAfter
  split
  · rename_i h0
    have : ms.length ≤ i := List.drop_eq_nil_iff.1 h0
    rwa [List.take_of_length_le (by omega)] at h
  · rename_i m rest h0
    have hlt : i < ms.length := by
      by_contra hc
      rw [List.drop_eq_nil_of_le (by omega)] at h0
      simp at h0
    have hm : ms.take (i + 1) = ms.take i ++ [m] := by
      have e := List.drop_eq_getElem_cons hlt
      rw [h0] at e
      rw [List.take_succ_eq_append_getElem hlt, (List.cons.inj e).1]
    rw [hm, massChain_append] at h
    rw [massChain_append]
    refine ⟨h.1, h.2.1, massChain_updateMasses _ _ _⟩

theorem massChain_take {E : Engine T M B} {mass : M} {ms : List (Manoeuvre M B X)} (h : MassChain E mass ms) (i : Nat) :
    MassChain E mass (ms.take i) := by
  rw [← List.take_append_drop i ms, massChain_append] at h
  exact h.1

theorem massBefore_take {E : Engine T M B} {p : Plan T M B X} {i : Nat} {mass : M} (h : insertionMass E i p = some mass) :
    (((p.manoeuvres.take i).getLast?.map fun m => E.finalMass m.mass m.burn).getD p.initialMass) = mass := by
  unfold insertionMass at h
  split at h
  · rename_i h0
    subst h0
    simpa using h
  · rename_i h0
    obtain ⟨m, hm, rfl⟩ := Option.map_eq_some_iff.1 h
    have hlt := (List.getElem?_eq_some_iff.1 hm).1
    have : (p.manoeuvres.take i).getLast? = some m := by
      rw [List.getLast?_eq_getElem?, List.getElem?_take_of_lt (by rw [List.length_take]; omega), List.length_take, ← hm]
      congr 1; omega
    rw [this]; rfl

theorem massChain_insert {E : Engine T M B} {p : Plan T M B X} {i : Nat} {mass : M} {burn : B} (h : MassChain E p.initialMass p.manoeuvres)
    (hi : i ≤ p.manoeuvres.length) (hm : insertionMass E i p = some mass) :
    MassChain E p.initialMass (updateInitialMassAfter E i (p.manoeuvres.insertIdx i ⟨mass, burn, none⟩)) := by
  apply massChain_update
  have : (p.manoeuvres.insertIdx i ⟨mass, burn, none⟩).take (i + 1) = p.manoeuvres.take i ++ [⟨mass, burn, none⟩] := by
    rw [List.take_succ, insertIdx_take _ _ _ hi, List.getElem?_insertIdx_self]
    rw [if_pos hi]
    rfl
  rw [this, massChain_append]
  refine ⟨massChain_take h i, ?_⟩
  rw [massBefore_take hm]
  exact ⟨rfl, trivial⟩

theorem massChain_replace {E : Engine T M B} {mass : M} {ms : List (Manoeuvre M B X)} {i : Nat} {old : Manoeuvre M B X} {burn : B}
    (h : MassChain E mass ms) (hold : ms[i]? = some old) : MassChain E mass (updateInitialMassAfter E i (ms.set i ⟨old.mass, burn, none⟩)) := by
  have hlt := (List.getElem?_eq_some_iff.1 hold).1
  apply massChain_update
  have h' := massChain_take h (i + 1)
  rw [List.take_succ, hold] at h'
  rw [List.take_succ, List.take_set_of_le le_rfl, List.getElem?_set_self hlt]
  rw [Option.toList_some, massChain_append] at h'
  rw [Option.toList_some, massChain_append]
  exact ⟨h'.1, h'.2.1, trivial⟩

theorem massChain_of_keys {E : Engine T M B} {p p' : Plan T M B X} {ms : List (Manoeuvre M B X)} (hm : p'.initialMass = p.initialMass)
    (hk : p'.manoeuvres.map Manoeuvre.key = ms.map Manoeuvre.key) (h : MassChain E p.initialMass ms) : MassChain E p'.initialMass p'.manoeuvres := by
  rw [hm, massChain_keys hk]
  exact h

theorem reachable_of_edited {E : Engine T M B} {p : Plan T M B X} (h : Edited E p) : Reachable E true p := by
  induction h with
  | make hI h => exact .make hI h
  | read _ hI hI' h => exact .read hI hI' h
  | insert _ hI h ih => exact .insert ih hI h
  | removeLast _ hI _ h ih => exact .remove ih hI h
  | replace _ hI h ih => exact .replace ih hI h
  | setDesiredFinalTime _ hI h ih => exact .setDesiredFinalTime ih hI h
  | setAdaptiveStepParameters _ hI h ih => exact .setAdaptiveStepParameters ih hI h
  | avoidDeadline _ hI h ih => exact .avoidDeadline ih hI h
  | enableAnalysis _ ih => exact .enableAnalysis ih
  | copy _ h ih => exact .copy ih rfl h

/-- **C33**, for the histories where only the last manœuvre is removed: the initial mass of each manœuvre is the final mass of the preceding one.
Missing: the removal of a manœuvre that is not the last, for which the property doesn't hold (see `C33_remove` and `C33_remove_counterexample`). -/
theorem C33_mass_chain_partial (E : Engine T M B) (p : Plan T M B X) (h : Edited E p) : MassChain E p.initialMass p.manoeuvres := by
  induction h with
  | make hI h =>
    have := (wf_make (strict := true) hI h)
    rw [this.2.2.1]
    trivial
  | read h0 hI hI' h ih =>
    obtain ⟨_, k1, k2, _⟩ := wf_read (strict := true) hI hI' h
    exact massChain_of_keys k1 k2 ih
  | insert h0 hI h ih =>
    rcases insert_spec hI (wf_reachable (reachable_of_edited h0)) h with rfl | ⟨mass, hm, hr⟩
    · exact ih
    · exact massChain_of_keys hr.initialMass hr.keys_eq (massChain_insert ih (insert_cases h).1 hm)
  | removeLast h0 hI hi h ih =>
    have hr := remove_spec hI (wf_reachable (reachable_of_edited h0)) h
    refine massChain_of_keys hr.initialMass hr.keys_eq ?_
    apply massChain_update
    rename_i i p s p'
    rw [List.take_of_length_le (by rw [List.length_eraseIdx_of_lt (by omega)]; omega), List.eraseIdx_eq_take_drop_succ, List.drop_eq_nil_of_le (by omega),
      List.append_nil]
    exact massChain_take ih _
  | replace h0 hI h ih =>
    rcases replace_spec hI (wf_reachable (reachable_of_edited h0)) h with ⟨rfl, _⟩ | ⟨old, hold, hr⟩
    · exact ih
    · exact massChain_of_keys hr.initialMass hr.keys_eq (massChain_replace ih hold)
  | setDesiredFinalTime h0 hI h ih =>
    rcases setDesiredFinalTime_spec hI (wf_reachable (reachable_of_edited h0)) h with ⟨rfl, _⟩ | ⟨_, hr, _⟩
    · exact ih
    · exact massChain_of_keys hr.initialMass hr.keys_eq ih
  | setAdaptiveStepParameters h0 hI h ih =>
    have hr := recomputeAll_spec hI (wf_reachable (reachable_of_edited h0)) h
    exact massChain_of_keys hr.initialMass hr.keys_eq ih
  | avoidDeadline h0 hI h ih =>
    rcases avoidDeadline_spec hI (wf_reachable (reachable_of_edited h0)) h with ⟨rfl, _⟩ | hr
    · exact ih
    · exact massChain_of_keys hr.initialMass hr.keys_eq ih
  | enableAnalysis h0 ih =>
    obtain ⟨_, h1, h2⟩ := enableAnalysis_spec (wf_reachable (reachable_of_edited h0)) _
    rw [h1, h2]
    exact ih
  | copy h0 h ih =>
    rw [copy_spec (wf_reachable (reachable_of_edited h0))] at h
    obtain rfl := (Option.some.inj h).symm
    exact ih

/-- **C33.**  What happens when a manœuvre is removed: the following manœuvre keeps its initial mass, and the masses are those that follow from it. -/
theorem C33_remove (E : Engine T M B) (copies : Bool) (p p' : Plan T M B X) (h : Reachable E copies p) (hm : MassChain E p.initialMass p.manoeuvres)
    (env : Env T M B X) (hI : Integrator env) (i : Nat) (s : Status) (hr : remove E env i p = some (s, p')) :
    MassChain E p'.initialMass (p'.manoeuvres.take i) ∧
      ∀ next, p.manoeuvres[i + 1]? = some next → MassChain E next.mass (p'.manoeuvres.drop i) := by
  have hr' := remove_spec hI (wf_reachable h) hr
  have hi : i < p.manoeuvres.length := by
    unfold remove at hr
    split at hr
    · assumption
    · exact absurd hr (by simp)
  have htake : (p'.manoeuvres.take i).map Manoeuvre.key = (p.manoeuvres.take i).map Manoeuvre.key := by
    rw [List.map_take, hr'.keys_eq, ← List.map_take, updateInitialMassAfter_take, eraseIdx_take]
  refine ⟨?_, fun next hn => ?_⟩
  · rw [hr'.initialMass, massChain_keys htake]
    exact massChain_take hm i
  · have hdrop : (p'.manoeuvres.drop i).map Manoeuvre.key = ((updateInitialMassAfter E i (p.manoeuvres.eraseIdx i)).drop i).map Manoeuvre.key := by
      rw [List.map_drop, hr'.keys_eq, ← List.map_drop]
    rw [massChain_keys hdrop]
    have hlt := (List.getElem?_eq_some_iff.1 hn).1
    have e : (p.manoeuvres.eraseIdx i).drop i = next :: p.manoeuvres.drop (i + 2) := by
      rw [List.eraseIdx_eq_take_drop_succ, List.drop_append, List.drop_eq_nil_of_le (by simp), List.nil_append, List.length_take, Nat.min_eq_left hi.le,
        Nat.sub_self, List.drop_zero, List.drop_eq_getElem_cons hlt, (List.getElem?_eq_some_iff.1 hn).2]
    unfold updateInitialMassAfter
    rw [e]
    simp only
    rw [List.drop_append, List.drop_eq_nil_of_le (by simp), List.nil_append, List.length_take, List.length_eraseIdx_of_lt hi, Nat.min_eq_left (by omega),
      Nat.sub_self, List.drop_zero]
    exact ⟨rfl, massChain_updateMasses _ _ _⟩

/-! ## C34: copies -/

/-- **C34**, in part: copying a flight plan never fails, and the copy has the same manœuvres, segments, anomalies, times.  Missing: the status, which is lost
(`C34_status_counterexample`), and the analyses (`C34_analysis_counterexample`). -/
theorem C34_copy_partial (E : Engine T M B) (copies : Bool) (p : Plan T M B X) (h : Reachable E copies p) :
    ∃ p', copy p = some p' ∧ p'.manoeuvres = p.manoeuvres ∧ p'.segments = p.segments ∧ p'.anomalous = p.anomalous ∧
      p'.initialTime = p.initialTime ∧ p'.initialMass = p.initialMass ∧ p'.initialDof = p.initialDof ∧ p'.desiredFinalTime = p.desiredFinalTime ∧
      p'.actualFinalTime = p.actualFinalTime ∧ p'.numberOfAnomalousManoeuvres = p.numberOfAnomalousManoeuvres ∧
      p'.analysisIsEnabled = p.analysisIsEnabled ∧ (p.anomalous = 0 → p'.status = p.status) := by
  have hW := wf_reachable h
  exact ⟨_, copy_spec hW, rfl, rfl, rfl, rfl, rfl, rfl, rfl, rfl, rfl, rfl, fun ha => (hW.fine ha).symm⟩

/-- **C34.**  The copy of a plan without anomaly only differs from it by its analyses. -/
theorem C34_fine_partial (E : Engine T M B) (copies : Bool) (p p' : Plan T M B X) (h : Reachable E copies p) (hc : copy p = some p')
    (ha : p.anomalous = 0) : p' = { p with analysers := p.analysers.map fun _ => none } := by
  have hW := wf_reachable h
  rw [copy_spec hW] at hc
  obtain rfl := (Option.some.inj hc).symm
  rw [hW.fine ha]

end Principia.FlightPlan
