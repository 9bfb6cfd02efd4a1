import Verif.Model.Files
/-!
# playback/playback.go:34-47: opening and decoding a song

What a file contains and what the mp3 decoder (faiface/beep) makes of it is arbitrary. The texts of the errors, which are
logged, are left out.
-/
namespace MS.Decode

/-- What `mp3.Decode` returns: the samples, and the sample rate they were recorded with (in the `beep.Format`).
(playback/playback.go:41) -/
structure Decoded (α : Type) where
  samples : List α
  rate : Nat

/-- playback/playback.go:34-47 `getStreamer`: the format, and with it the sample rate of the recording, is dropped (41).
`openFile` is `os.Open`, `decode` is `mp3.Decode`. -/
def getStreamer {α F : Type} (openFile : Files.Path → Option F) (decode : F → Option (Decoded α)) (audioDir : Files.Path)
    (name : Files.Path) : Option (List α) :=
  match openFile (Files.join audioDir name) with
  | none => none
  | some f =>
    match decode f with
    | none => none
    | some d => some d.samples

end MS.Decode
