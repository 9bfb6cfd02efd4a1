import Verif.Model.Pipeline
import Verif.Props.InSync
import Verif.Props.StreamLoop
/-!
# Property C70: what a player plays is what the server streamed
-/
set_option linter.unusedSimpArgs false
set_option linter.unusedVariables false
namespace MS.Pipeline
open MS.InSync MS.Streamer
open MS.StreamMusic (chunkTime messages)

variable {β : Type}

/-- Specification: the sample with index `j` of a stream as a player hears it. -/
def sampleOf (stream : List (Option (β × β))) (j : Nat) : Option (β × Option β) :=
  match stream[j]? with
  | some (some (l, h)) => some (l, some h)
  | _ => none

theorem heard_pushed (o : Option (β × β)) : heard (pushed o) = o.map (fun p => (p.1, some p.2)) := by
  cases o <;> rfl

theorem combine_zip {α : Type} (low high : List α) : MS.ReadChunks.combineSamples low high = low.zip high := by
  obtain ⟨h1, h2⟩ := MS.ReadChunks.C18_combine low high
  apply List.ext_getElem?
  intro i
  rcases Nat.lt_or_ge i low.length with hl | hl
  · rcases Nat.lt_or_ge i high.length with hh | hh
    · rw [h2 i hl hh, List.getElem?_eq_getElem (by simp; omega)]; simp
    · rw [List.getElem?_eq_none (by rw [h1]; omega), List.getElem?_eq_none (by simp; omega)]
  · rw [List.getElem?_eq_none (by rw [h1]; omega), List.getElem?_eq_none (by simp; omega)]

/-- The chunk made of window `n` of the stream. -/
theorem stamped_window (rate size : Nat) (start : Int) (stream : List (Option (β × β))) (n : Nat) (hn : (n + 1) * size ≤ stream.length)
    (c : MS.ReadChunks.Chunk (β × Option β)) (h1 : c.start = start + n * chunkTime size rate)
    (h2 : c.samples = ((stream.drop (n * size)).take size).map (fun o => heard (pushed o))) :
    MS.ReadChunks.stamped rate c =
      (List.range' (n * size) size).map (fun j => ⟨sampleOf stream j, due start size rate j⟩) := by
  rw [Nat.add_mul, Nat.one_mul] at hn
  have hlen : c.samples.length = size := by rw [h2]; simp; omega
  apply List.ext_getElem
  · simp [MS.ReadChunks.stamped, hlen]
  · intro i hi1 hi2
    have hi : i < size := by simpa using hi2
    simp only [MS.ReadChunks.stamped, List.getElem_zipWith, List.getElem_range, List.getElem_map, List.getElem_range', Nat.one_mul, h1]
    have e1 : (n * size + i) / size = n := by
      rw [Nat.add_comm, Nat.add_mul_div_right _ _ (by omega), Nat.div_eq_of_lt hi]; omega
    have e2 : (n * size + i) % size = i := by
      rw [Nat.add_comm, Nat.add_mul_mod_self_right, Nat.mod_eq_of_lt hi]
    have hlt : n * size + i < stream.length := by omega
    have e3 : sampleOf stream (n * size + i) = (stream[n * size + i]).map (fun p => (p.1, some p.2)) := by
      unfold sampleOf
      rw [List.getElem?_eq_getElem hlt]
      cases stream[n * size + i] <;> rfl
    rw [e3, due, e1, e2, MS.ReadChunks.dur_spec]
    congr 1
    simp only [h2, List.getElem_map, List.getElem_take, List.getElem_drop, heard_pushed]

theorem flatMap_windows {γ : Type} (g : Nat → γ) (size : Nat) : ∀ (n a : Nat),
    (List.range' a n).flatMap (fun m => (List.range' (m * size) size).map g) = (List.range' (a * size) (n * size)).map g := by
  intro n
  induction n with
  | zero => intro a; simp
  | succ n ih =>
    intro a
    rw [List.range'_succ, List.flatMap_cons, ih, ← List.map_append]
    congr 1
    rw [Nat.add_mul a 1, Nat.one_mul, List.range'_append_1, Nat.add_mul n 1, Nat.one_mul, Nat.add_comm]

/-- C70, the buffer. The server pushes a stream of samples and cuts it into chunks in any interleaving; a player handles the audio
messages from the `a`-th on in order (`n` of them so far; it may have joined at any time), in any interleaving with its reader.
Then the samples it has put into its playback buffer are the first ones of: the samples `a * size`, ... of the stream, each with
the due time of its index. -/
theorem C70_buffer_content (cap size rate : Nat) (now delay : Int) (stream : List (Option (β × β))) (facts : List (MS.Fill.Act (Option β)))
    (f : MS.Fill.St (Option β)) (hf : MS.Fill.run (MS.Fill.init cap) facts = some f)
    (hp : MS.Fill.pushes facts = stream.map pushed) (hs : ∀ c ∈ f.chunks, c.2.1.length = size)
    (racts : List (MS.ReadChunks.Act (β × Option β))) (r : MS.ReadChunks.St (β × Option β)) (hr : MS.ReadChunks.run (MS.ReadChunks.init rate) racts = some r)
    (a n : Nat) (han : a + n ≤ f.chunks.length)
    (harr : MS.ReadChunks.arrivals racts = (((messages now delay size rate f.chunks).map (fun m => received m.1)).drop a).take n) :
    r.adds <+: (List.range' (a * size) (n * size)).map (fun j => ⟨sampleOf stream j, due (now + delay) size rate j⟩) := by
  have hpre := MS.ReadChunks.C20_adds_prefix rate racts r hr
  have hlen : (messages now delay size rate f.chunks).length = f.chunks.length := MS.StreamMusic.messagesFrom_length _ _ _ _ _
  have key : ∀ m, m < f.chunks.length → ∃ c, ((messages now delay size rate f.chunks).map (fun m => received m.1))[m]? = some c ∧
      MS.ReadChunks.stamped rate c = (List.range' (m * size) size).map (fun j => ⟨sampleOf stream j, due (now + delay) size rate j⟩) := by
    intro m hm
    obtain ⟨q, i, g1, g2, -, -, -, -, -, g3, g4⟩ := MS.StreamMusic.C13_stamps now delay size rate cap facts f hf hs m hm
    refine ⟨received q, by rw [List.getElem?_map, g1]; rfl, ?_⟩
    have hw := MS.Fill.C11_chunks_are_windows cap facts f hf
    obtain ⟨w1, w2, w3, w4⟩ := MS.StreamMusic.windows_index 0 f.chunks hw hs m hm
    rw [Nat.zero_add] at w3
    have hl := hs f.chunks[m] (List.getElem_mem hm)
    rcases Nat.eq_zero_or_pos size with h0 | hpos
    · subst h0
      have : (received q).samples = [] := by
        simp only [received, combine_zip, g3]; simp
      simp [MS.ReadChunks.stamped, this]
    have hbound : (m + 1) * size ≤ stream.length := by
      rw [w3] at hl
      simp [hp] at hl
      rw [Nat.add_mul]
      omega
    apply stamped_window rate size (now + delay) stream m hbound _ (by simp [received, g2])
    simp only [received, combine_zip, g3, g4, hp]
    rw [List.zip_map']
    simp [List.map_take, List.map_drop, Function.comp_def]
  refine hpre.trans ?_
  rw [harr]
  have e : ((((messages now delay size rate f.chunks).map (fun m => received m.1)).drop a).take n).flatMap (MS.ReadChunks.stamped rate) =
      (List.range' a n).flatMap (fun m => (List.range' (m * size) size).map (fun j => ⟨sampleOf stream j, due (now + delay) size rate j⟩)) := by
    generalize hM : (messages now delay size rate f.chunks).map (fun m => received m.1) = M at key
    have hMl : M.length = f.chunks.length := by rw [← hM, List.length_map, hlen]
    clear harr hM
    induction n generalizing a with
    | zero => simp
    | succ n ih =>
      obtain ⟨c, c1, c2⟩ := key a (by omega)
      rw [List.range'_succ, List.flatMap_cons, ← ih (a + 1) (by omega)]
      have hlt : a < M.length := by omega
      rw [List.drop_eq_getElem_cons hlt, List.take_succ_cons, List.flatMap_cons]
      rw [List.getElem?_eq_getElem hlt] at c1
      injection c1 with c1
      rw [c1, c2]
  rw [e, flatMap_windows]
  exact List.prefix_refl _

/-- C70. Everything a player writes to its sound device is silence or a sample of the server's stream, both channels, in the order
of the stream, and none twice, for every schedule of the server's loop (songs, pauses, jumps, playlist edits), of the chunking
and of the player, and whatever its clock shows. The stream in turn consists of the announced songs (C08). -/
theorem C70_played_in_order (c : MS.StreamLoop.Cfg (β × β)) (songs : List String) (acts : List MS.StreamLoop.Act) (s : MS.StreamLoop.St (β × β))
    (hserver : MS.StreamLoop.run c (MS.StreamLoop.init songs) acts = some s)
    (cap size rate : Nat) (now delay : Int) (facts : List (MS.Fill.Act (Option β))) (f : MS.Fill.St (Option β))
    (hf : MS.Fill.run (MS.Fill.init cap) facts = some f) (hp : MS.Fill.pushes facts <+: s.out.map pushed)
    (hs : ∀ c ∈ f.chunks, c.2.1.length = size)
    (racts : List (MS.ReadChunks.Act (β × Option β))) (r : MS.ReadChunks.St (β × Option β)) (hr : MS.ReadChunks.run (MS.ReadChunks.init rate) racts = some r)
    (a n : Nat) (han : a + n ≤ f.chunks.length)
    (harr : MS.ReadChunks.arrivals racts = (((messages now delay size rate f.chunks).map (fun m => received m.1)).drop a).take n)
    (len : Nat) (clock : List Int) (out : List (Option (β × Option β))) (sy : Bool) (rest : List (TS (β × Option β)))
    (buffer : List (TS (β × Option β))) (hbuf : buffer <+: r.adds)
    (hplay : playLoop rate len clock true buffer = some (out, sy, rest)) :
    (audible out).Sublist ((MS.Spec.audio (s.out.drop (a * size))).map (fun p => (p.1, some p.2))) ∧
    MS.Spec.Explained c.dec s.cuts (!MS.StreamLoop.inSong s.pc) s.news.reverse s.out := by
  refine ⟨?_, MS.StreamLoop.C08_stream_explained c songs acts s hserver⟩
  obtain ⟨t, ht⟩ := hp
  generalize hm : (MS.Fill.pushes facts).length = m at *
  have hpp : MS.Fill.pushes facts = (s.out.take m).map pushed := by
    rw [List.map_take, ← ht, ← hm]; simp
  have hb := C70_buffer_content cap size rate now delay (s.out.take m) facts f hf hpp hs racts r hr a n han harr
  obtain ⟨-, consumed, e1, e2⟩ := C14_in_order rate len clock true buffer out sy rest hplay
  have h1 : (consumed.map (·.val)).Sublist ((List.range' (a * size) (n * size)).map (sampleOf (s.out.take m))) := by
    have : consumed.Sublist ((List.range' (a * size) (n * size)).map
        (fun j => (⟨sampleOf (s.out.take m) j, due (now + delay) size rate j⟩ : TS (β × Option β)))) := by
      refine List.Sublist.trans ?_ ((hbuf.trans hb).sublist)
      rw [← e1]; exact List.sublist_append_left _ _
    have := this.map (·.val)
    simpa [List.map_map, Function.comp_def] using this
  -- drop the markers on both sides
  have h2 := (e2.trans h1).filterMap (fun x => x)
  have h3 : ((audible out).map some).filterMap (fun x => x) = audible out := by
    rw [List.filterMap_map]; simp [Function.comp_def]
  rw [h3] at h2
  refine h2.trans ?_
  -- the samples from `a * size` on, in order
  have h4 : ∀ (k b : Nat), ((List.range' b k).map (sampleOf (s.out.take m))).filterMap (fun x => x) =
      (MS.Spec.audio (((s.out.take m).drop b).take k)).map (fun p => (p.1, some p.2)) := by
    intro k
    induction k with
    | zero => intro b; simp [MS.Spec.audio]
    | succ k ih =>
      intro b
      rw [List.range'_succ, List.map_cons]
      rcases Nat.lt_or_ge b (s.out.take m).length with hb | hb
      · rw [List.drop_eq_getElem_cons hb, List.take_succ_cons]
        have e : sampleOf (s.out.take m) b = ((s.out.take m)[b]).map (fun p => (p.1, some p.2)) := by
          unfold sampleOf
          rw [List.getElem?_eq_getElem hb]
          cases (s.out.take m)[b] <;> rfl
        have := ih (b + 1)
        rw [e]
        cases hx : (s.out.take m)[b] with
        | none => simpa [MS.Spec.audio] using this
        | some p => simpa [MS.Spec.audio] using this
      · have e : sampleOf (s.out.take m) b = none := by
          unfold sampleOf
          rw [List.getElem?_eq_none hb]
        have := ih (b + 1)
        rw [List.drop_eq_nil_of_le (by omega)] at this ⊢
        rw [e]
        simpa [MS.Spec.audio] using this
  rw [h4]
  apply List.Sublist.map
  simp only [MS.Spec.audio]
  apply List.Sublist.filterMap
  refine (List.take_sublist _ _).trans ?_
  rw [List.drop_take]
  exact List.take_sublist _ _

/-- One song of four samples, breaks of one sample. -/
def oneSong : MS.StreamLoop.Cfg (Nat × Nat) := { dec := fun _ => some [(1, 2), (3, 4), (5, 6), (7, 8)], brk := 1 }

/-- Three chunks of two samples: the song, the break, and its first sample again. -/
def sixPushes : List (MS.Fill.Act (Option Nat)) :=
  [(some 1, some 2), (some 3, some 4), (some 5, some 6), (some 7, some 8), (none, none), (some 1, some 2)].flatMap
    (fun p => [.pushLow p.1 p.2, .pushHigh]) ++
  (List.replicate 3 [.fill 2, .readLow, .readHigh, .readHigh, .readLow, .ret]).flatten

/-- The first three chunks. -/
def threeChunks : List (Nat × List (Option Nat) × List (Option Nat)) :=
  [(0, [some 1, some 3], [some 2, some 4]), (2, [some 5, some 7], [some 6, some 8]), (4, [none, some 1], [none, some 2])]

/-- What a player that joined at the second chunk has buffered. -/
def joined : List (TS (Nat × Option Nat)) :=
  [⟨some (5, some 6), 2000015⟩, ⟨some (7, some 8), 3000015⟩, ⟨none, 4000015⟩, ⟨some (1, some 2), 5000015⟩]

/-- Non-vacuity of C70, the server. -/
example : ∃ s, MS.StreamLoop.run oneSong (MS.StreamLoop.init ["a"]) (.setPlaying true :: List.replicate 14 .loop) = some s ∧
    MS.Fill.pushes sixPushes <+: s.out.map pushed := ⟨_, rfl, by decide⟩

/-- The chunks. -/
example : ∃ f, MS.Fill.run (MS.Fill.init 6) sixPushes = some f ∧ f.chunks = threeChunks ∧ ∀ c ∈ f.chunks, c.2.1.length = 2 :=
  ⟨_, rfl, rfl, by decide⟩

/-- The player. -/
example : ∃ r, MS.ReadChunks.run (MS.ReadChunks.init 1000)
    (((((messages 5 10 2 1000 threeChunks).map (fun m => received m.1)).drop 1).take 2).map .queue ++ List.replicate 10 .reader) = some r ∧
    r.adds = joined := ⟨_, rfl, by decide⟩

/-- Its output. -/
example : playLoop 1000 1 [0, 3000015] true joined = some ([none, some (7, some 8)], false, joined.drop 2) := by
  simp [joined, playLoop, stream, streamSync, skipNaN, samplesDuration, dropLate, streamDirect, List.replicate]

end MS.Pipeline
