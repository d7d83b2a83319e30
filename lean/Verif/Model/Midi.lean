import Verif.Model.PitchClass
/-
Model of `Midi` (include/midi.h, src/midi.cc).  Reading the file and merging its tracks is the midifile
library (`absoluteTicks`, `joinTracks`), outside the model: a file is the list of events of the merged
track, each event its bytes.
-/

namespace JKD

/-- `Status` constants (include/status.h:35-45). -/
def statusMidiUninitialized : Int := 5
def statusMidiReady : Int := 6

/-- A `Midi` object (include/midi.h). -/
structure Midi where
  status : Int
  /-- the events of track 0 after `joinTracks()` -/
  events : List (List Nat)

namespace Midi

/-- `Midi::Midi(std::string)` (src/midi.cc:32-37): the status does not depend on the outcome of `read`. -/
def construct (events : List (List Nat)) : Midi := { status := statusMidiReady, events := events }

/-- The loop body (src/midi.cc:48-53).  Indexing a missing byte of an event is undefined. -/
def step (seq : List PitchClass) (ev : List Nat) : Res (List PitchClass) := do
  let b0 ← Res.read ev[0]?
  let command := b0 &&& 0xf0
  if command = 0x90 then
    let b2 ← Res.read ev[2]?
    if b2 ≠ 0 then
      let pitch ← Res.read ev[1]?
      return seq ++ [PitchClass.ofInt (pitch % 12 : Nat)]
    else return seq
  else return seq

/-- `Midi::getPitchClassSequence` (src/midi.cc:39-55).  There is no `return` after the loop: flowing off the
end is undefined behaviour (`strict = true`).  With `strict = false` the function is read as if it returned
the vector it built, which is what compilers that construct it in the caller's return slot do. -/
def getPitchClassSequence (strict : Bool) (m : Midi) : Res (List PitchClass) :=
  if m.status ≠ statusMidiReady then .ok []
  else do
    let seq ← forM m.events [] step
    if strict then .ub else return seq

/-- `Midi::getStatus` (src/midi.cc:57-59). -/
def getStatus (m : Midi) : Int := m.status

end Midi
end JKD
