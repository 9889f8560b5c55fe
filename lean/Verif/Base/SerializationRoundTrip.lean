import Verif.Base.PullSerializerProps
import Verif.Base.PushDeserializerProps

/-!
# C12: pulling from a serializer and pushing into a deserializer
-/

namespace Principia.SerializationRoundTrip

open Principia.Lts

variable {β : Type}

/-- The deserializer undoes the compression. -/
def Inverse (z f : Option (List β → List β)) : Prop :=
  match z, f with
  | none, none => True
  | some z, some f => ∀ l, l ≠ [] → f (z l) = l
  | _, _ => False

/-- A message is serialized by a `PullSerializer`; a client pulls all the arrays and later pushes them to a `PushDeserializer` with the
same compressor and chunks that are large enough: in every execution of both, the parser sees the bytes that the serialization
produced.  The chunk sizes and the number of chunks may differ. -/
theorem C12_round_trip (p : PullSerializer.Params β) (hp : p.Ok) (ws : List (PullSerializer.Write β))
    (hl : PullSerializer.Legal p ws) (hf : PullSerializer.Flushed ws) (junk : Nat → List β) (ls : List PullSerializer.Label)
    (s : PullSerializer.State β) (hr : run (PullSerializer.step p) (PullSerializer.init p junk ws) ls = some s)
    (hfin : PullSerializer.finished s)
    (p' : PushDeserializer.Params β) (hinv : Inverse p.compressor p'.uncompress)
    (pushes : List (PushDeserializer.Push β)) (hpushes : pushes.map PushDeserializer.Push.bytes = s.received)
    (ho : PushDeserializer.Ok p' pushes) (ls' : List PushDeserializer.Label)
    (s' : PushDeserializer.State β) (hr' : run (PushDeserializer.step p') (PushDeserializer.init pushes) ls' = some s')
    (hterm : s'.parser = .terminated) :
    s'.seen = (ws.map PullSerializer.Write.data).flatten := by
  have hrec := (PullSerializer.C11_stream p hp ws hl hf junk ls s hr).2.1 hfin
  rw [hrec] at hpushes
  have ht : PushDeserializer.Terminated pushes := by
    unfold PullSerializer.expected at hpushes
    obtain ⟨arrays, rest, e1, e2, e3⟩ := List.map_eq_append_iff.1 hpushes
    obtain ⟨x, t, e4, e5, e6⟩ := List.map_eq_cons_iff.1 e3
    have ht := List.map_eq_nil_iff.1 e6
    subst ht
    refine ⟨arrays, x.done, ?_, ?_⟩
    · rw [e1, e4]
      congr 1
      cases x
      simp only at e5
      rw [e5]
    · intro a ha hne
      have : a.bytes ∈ arrays.map PushDeserializer.Push.bytes := List.mem_map.2 ⟨a, ha, rfl⟩
      rw [e2] at this
      obtain ⟨d, hd, hda⟩ := List.mem_map.1 this
      have hd' : d ≠ [] := by
        have := (List.mem_filter.1 hd).2
        intro e; subst e; simp at this
      rw [hne] at hda
      unfold PullSerializer.Params.compress at hda
      cases hz : p.compressor with
      | none => rw [hz] at hda; exact hd' hda
      | some z => rw [hz] at hda; exact hp.compressor z hz d hd' hda
  rw [((PushDeserializer.C12_end p' pushes ho ht ls' s' hr').2 hterm).1]
  have hplain : ∀ d : List β, d ≠ [] → p'.plain (p.compress d) = d := by
    intro d hd
    unfold Inverse at hinv
    unfold PushDeserializer.Params.plain PullSerializer.Params.compress
    cases hz : p.compressor with
    | none =>
      cases hu : p'.uncompress with
      | none => rfl
      | some f => rw [hz, hu] at hinv; exact hinv.elim
    | some z =>
      cases hu : p'.uncompress with
      | none => rw [hz, hu] at hinv; exact hinv.elim
      | some f =>
        rw [hz, hu] at hinv
        simp only
        rw [if_neg, hinv d hd]
        intro e
        exact hp.compressor z hz d hd (List.length_eq_zero_iff.1 e)
  have hnil : p'.plain ([] : List β) = [] := by
    unfold PushDeserializer.Params.plain
    cases p'.uncompress <;> simp
  have h1 : PushDeserializer.content p' pushes = ((PullSerializer.expected p ws).map p'.plain).flatten := by
    rw [← hpushes, List.map_map]; rfl
  rw [h1]
  clear h1 hpushes hrec hr hl hf hr' hterm ht
  induction ws with
  | nil => simp [PullSerializer.expected, hnil]
  | cons w ws ih =>
    rw [PullSerializer.expected_cons]
    split
    · rename_i he
      rw [ih, List.map_cons, List.flatten_cons, List.isEmpty_iff.1 he, List.nil_append]
    · rename_i he
      rw [List.map_cons, List.flatten_cons, ih, hplain w.data (by intro e; rw [e] at he; simp at he), List.map_cons,
        List.flatten_cons]

/-- The hypotheses can be met: two chunks, prefixed by a byte, pulled and pushed back. -/
example : ∃ (s' : PushDeserializer.State Nat) (ls' : List PushDeserializer.Label),
    Inverse (β := Nat) (some (9 :: ·)) (some List.tail) ∧
    run (PushDeserializer.step ⟨1, 2, 3, some List.tail⟩)
      (PushDeserializer.init ([[9, 1, 2], [9, 3], []].map fun l => ⟨l, none⟩)) ls' = some s' ∧
    s'.parser = .terminated ∧ s'.seen = [1, 2, 3] := by
  refine ⟨_, [.client, .client, .next, .client, .client, .next, .client, .client, .next, .finish], ?_, rfl, rfl, rfl⟩
  intro l hl; rfl

end Principia.SerializationRoundTrip
