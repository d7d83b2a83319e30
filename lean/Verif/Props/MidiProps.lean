import Verif.Model.Midi
/-
C34: the notes of a MIDI file.
-/

namespace JKD
namespace Midi

/-- The pitch of a sounding note-on message: status byte 0x90..0x9F (any channel), velocity above zero. -/
def sounding : List Nat → Option Nat
  | status :: pitch :: velocity :: _ =>
    if 0x90 ≤ status ∧ status ≤ 0x9f ∧ 0 < velocity then some pitch else none
  | _ => none

/-- A well-formed event: at least a status byte, bytes below 256, and a note-on message has its two data
bytes. -/
def WellFormed (ev : List Nat) : Prop :=
  (∀ b ∈ ev, b < 256) ∧ ∃ b0 rest, ev = b0 :: rest ∧ (0x90 ≤ b0 ∧ b0 ≤ 0x9f → 2 ≤ rest.length)

theorem noteOn_iff (b : Nat) (hb : b < 256) : (b &&& 0xf0 = 0x90) ↔ (0x90 ≤ b ∧ b ≤ 0x9f) := by
  revert b
  decide +kernel

theorem step_eq (seq : List PitchClass) (ev : List Nat) (h : WellFormed ev) :
    step seq ev = .ok (seq ++ ((sounding ev).map (fun p => PitchClass.ofInt (p % 12 : Nat))).toList) := by
  obtain ⟨hb, b0, rest, rfl, hrest⟩ := h
  have h0 := noteOn_iff b0 (hb b0 (by simp))
  simp only [step, List.getElem?_cons_zero, Res.read_some, Res.bind_ok]
  by_cases hon : b0 &&& 0xf0 = 0x90
  · have hr := h0.1 hon
    have hl := hrest hr
    match rest, hl with
    | p :: v :: rest, _ =>
      by_cases hv : v = 0
      · simp [hon, hv, sounding]
      · have : 0 < v := Nat.pos_of_ne_zero hv
        simp [hon, hv, sounding, hr, this]
  · have hr : ¬ (0x90 ≤ b0 ∧ b0 ≤ 0x9f) := fun h => hon (h0.2 h)
    have hs : sounding (b0 :: rest) = none := by
      match rest with
      | [] => rfl
      | [_] => rfl
      | p :: v :: rest =>
        simp only [sounding]
        rw [if_neg]
        rintro ⟨h1, h2, _⟩
        exact hr ⟨h1, h2⟩
    simp [hon, hs]

theorem loop_eq (events : List (List Nat)) (h : ∀ ev ∈ events, WellFormed ev) (seq : List PitchClass) :
    forM events seq step =
      .ok (seq ++ (events.filterMap sounding).map (fun p => PitchClass.ofInt (p % 12 : Nat))) := by
  induction events generalizing seq with
  | nil => simp
  | cons ev events ih =>
    rw [forM_cons, step_eq seq ev (h ev (by simp)), Res.bind_ok, ih (fun ev hev => h ev (by simp [hev]))]
    cases hs : sounding ev <;> simp [hs]

/-- **C34 (partial).**  If the function is read as returning the vector it built, the result is pitch mod 12
of every sounding note-on event, in event order.  What is missing: it does not return it, see
`C34_no_return_violated`. -/
theorem C34_events_partial (events : List (List Nat)) (h : ∀ ev ∈ events, WellFormed ev) :
    getPitchClassSequence false (construct events) =
      .ok ((events.filterMap sounding).map (fun p => PitchClass.ofInt (p % 12 : Nat))) := by
  simp [getPitchClassSequence, construct, loop_eq events h []]

/-- **C34 violated.**  By the standard the function never has a defined result on a loaded MIDI file: control
flows off the end of a non-void function. -/
theorem C34_no_return_violated (events : List (List Nat)) (h : ∀ ev ∈ events, WellFormed ev) :
    getPitchClassSequence true (construct events) = .ub := by
  simp [getPitchClassSequence, construct, loop_eq events h []]

/-- Every pitch class in the result is one of the twelve. -/
theorem C34_range_partial (events : List (List Nat)) (h : ∀ ev ∈ events, WellFormed ev) :
    ∃ os : List Int, (∀ o ∈ os, 0 ≤ o ∧ o < 12) ∧
      getPitchClassSequence false (construct events) = .ok (os.map PitchClass.ofInt) := by
  refine ⟨(events.filterMap sounding).map (fun p => ((p % 12 : Nat) : Int)), ?_, ?_⟩
  · intro o ho
    obtain ⟨p, _, rfl⟩ := List.mem_map.1 ho
    have : p % 12 < 12 := Nat.mod_lt _ (by decide)
    omega
  · rw [C34_events_partial events h, List.map_map]
    rfl

/-- A note on, a note on with velocity zero, a note off, a controller message, a note on channel 16. -/
example : getPitchClassSequence false
    (construct [[0x90, 60, 64], [0x90, 60, 0], [0x80, 62, 64], [0xb0, 7, 100], [0x9f, 67, 1]]) =
    .ok [PitchClass.ofInt 0, PitchClass.ofInt 7] := by decide

example : WellFormed [0x9f, 67, 1] := ⟨by decide, 0x9f, [67, 1], rfl, by decide⟩

end Midi
end JKD
