import Verif.Model.SoundPath
import Verif.Props.Pipeline
import Verif.Props.Volume
import Verif.Props.Wire
/-!
# Property C112: from the recording to the sound device, byte for byte
-/
set_option linter.unusedSimpArgs false
set_option linter.unusedVariables false
namespace MS.SoundPath
open MS.Proto MS.Float64 MS.Wire
open MS.Pcm (le16)
open MS.Streamer (TS audible playLoop)

attribute [local irreducible] one

/-- Specification: bytes for the sound device read as 16 bit stereo: four bytes per sample, low byte first. -/
def levelsOf : List Int → List (Int × Int)
  | a :: b :: c :: d :: rest => (le16 (a, b), le16 (c, d)) :: levelsOf rest
  | _ => []

/-- Specification: what is heard of a sample at the volumes `v` of the two channels; `none` is silence. -/
def level (v : UInt64 × UInt64) (o : Option (UInt64 × UInt64)) : Int × Int :=
  match o with
  | some s => (heard v.1 s.1, heard v.2 s.2)
  | none => (0, 0)

theorem heard_silence (v : UInt64) (hv : ∃ z, ofBits v = .fin z) : heard v 0 = 0 := by
  obtain ⟨z, hz⟩ := hv
  have h0 : ofBits 0 = .fin 0 := by simp [ofBits]
  unfold heard sampleBytes
  rw [h0, hz, mul_fin (by simp)]
  have hp : prod 0 z = 0 := by
    unfold prod
    have := round_exact one_pos rep_zero
    simpa using this
  rw [hp]
  have := one_pos
  rw [level_fin (by simp) (by simp; omega)]
  simp

theorem level_written (v : UInt64 × UInt64) (h1 : ∃ z, ofBits v.1 = .fin z) (h2 : ∃ z, ofBits v.2 = .fin z) (o : Option (UInt64 × UInt64)) :
    (heard v.1 (written o).1, heard v.2 (written o).2) = level v o := by
  cases o with
  | none => simp [written, level, heard_silence _ h1, heard_silence _ h2]
  | some s => rfl

theorem levelsOf_append (a b : List Int) (k : Nat) (h : a.length = 4 * k) : levelsOf (a ++ b) = levelsOf a ++ levelsOf b := by
  induction k generalizing a with
  | zero => simp at h; simp [h, levelsOf]
  | succ k ih =>
    match a, h with
    | x0 :: x1 :: x2 :: x3 :: a', h =>
      simp only [List.cons_append, levelsOf]
      rw [ih a' (by simp at h; omega)]
    | [], h => simp at h
    | [_], h => simp at h; omega
    | [_, _], h => simp at h; omega
    | [_, _, _], h => simp at h; omega

theorem levelsOf_quads {γ : Type} (f : Nat → γ → UInt64 × UInt64 × UInt64 × UInt64) : ∀ (l : List γ) (i : Nat),
    levelsOf ((l.mapIdx fun j s => [(sampleBytes (f (i + j) s).1 (f (i + j) s).2.1).1, (sampleBytes (f (i + j) s).1 (f (i + j) s).2.1).2,
      (sampleBytes (f (i + j) s).2.2.1 (f (i + j) s).2.2.2).1, (sampleBytes (f (i + j) s).2.2.1 (f (i + j) s).2.2.2).2]).flatten) =
    l.mapIdx fun j s => (heard (f (i + j) s).1 (f (i + j) s).2.1, heard (f (i + j) s).2.2.1 (f (i + j) s).2.2.2) := by
  intro l
  induction l with
  | nil => intro i; simp [levelsOf]
  | cons x l ih =>
    intro i
    have := ih (i + 1)
    simp only [List.mapIdx_cons, List.flatten_cons, List.cons_append, List.nil_append, levelsOf, heard, Nat.add_assoc, Nat.add_comm 1] at this ⊢
    rw [this]

theorem quads_length {γ : Type} (w x y z : Nat → γ → Int) : ∀ (l : List γ), (l.mapIdx fun j s => [w j s, x j s, y j s, z j s]).flatten.length = 4 * l.length := by
  intro l
  induction l generalizing w x y z with
  | nil => rfl
  | cons c l ih =>
    rw [List.mapIdx_cons, List.flatten_cons, List.length_append, ih (fun j => w (j + 1)) (fun j => x (j + 1)) (fun j => y (j + 1)) (fun j => z (j + 1))]
    simp; omega

/-- What the sound device gets: for every sample the player streamed, in order, the levels at the volumes of that moment. -/
theorem device_levels (rate len : Nat) (volumes : Nat → Nat → UInt64) (hfin : ∀ k j, ∃ z, ofBits (volumes k j) = .fin z) :
    ∀ (nows : List Int) (k : Nat) (sy : Bool) (q : List (TS (UInt64 × UInt64))) (buf bytes : List Int), buf.length = 4 * len →
    device rate len volumes k nows sy q buf = some bytes →
    ∃ out sy' rest, playLoop rate len nows sy q = some (out, sy', rest) ∧ bytes.length = 4 * out.length ∧
      ∃ vs : List (UInt64 × UInt64), vs.length = out.length ∧ (∀ v ∈ vs, ∃ k j, v = (volumes k (2 * j), volumes k (2 * j + 1))) ∧
        levelsOf bytes = List.zipWith level vs out := by
  intro nows
  induction nows with
  | nil =>
    intro k sy q buf bytes hb h
    simp only [device, Option.some.injEq] at h
    subst h
    exact ⟨[], sy, q, rfl, rfl, [], rfl, by simp, by simp [levelsOf]⟩
  | cons now nows ih =>
    intro k sy q buf bytes hb h
    simp only [device] at h
    split at h
    · cases h
    rename_i out sy1 q1 hst
    split at h
    · cases h
    rename_i more hmore
    simp only [Option.some.injEq] at h
    subst h
    have hlen : out.length = len := by
      have : playLoop rate len [now] sy q = some (out, sy1, q1) := by simp [playLoop, hst]
      have := (MS.Streamer.C14_in_order rate len [now] sy q out sy1 q1 this).1
      simpa using this
    have hbuf := C108_buffer (volumes k) (out.map written) buf (by simp [hlen, hb])
    have hbl : (audioBufFrom (volumes k) 0 (out.map written) buf).length = 4 * out.length := by
      rw [hbuf]
      rw [quads_length]; simp
    obtain ⟨out2, sy2, rest, e1, e2, vs, e3, e4, e5⟩ := ih (k + 1) sy1 q1 _ more (by rw [hbl, hlen]) hmore
    refine ⟨out ++ out2, sy2, rest, ?_, ?_, (List.range out.length).map (fun j => (volumes k (2 * j), volumes k (2 * j + 1))) ++ vs, ?_, ?_, ?_⟩
    · simp [playLoop, hst, e1]
    · rw [List.length_append, List.length_append, hbl, e2]; omega
    · simp [e3]
    · intro v hv
      rcases List.mem_append.1 hv with hv | hv
      · obtain ⟨j, -, rfl⟩ := List.mem_map.1 hv
        exact ⟨k, j, rfl⟩
      · exact e4 v hv
    · rw [levelsOf_append _ _ out.length hbl, List.zipWith_append (by simp), e5]
      congr 1
      rw [hbuf]
      have hq := levelsOf_quads (fun j (s : UInt64 × UInt64) => (volumes k (2 * j), s.1, volumes k (2 * j + 1), s.2)) (out.map written) 0
      simp only [Nat.zero_add] at hq
      rw [hq]
      apply List.ext_getElem
      · simp
      · intro i h1 h2
        simp only [List.getElem_mapIdx, List.getElem_map, List.getElem_zipWith, List.getElem_range]
        exact level_written (volumes k (2 * i), volumes k (2 * i + 1)) (hfin _ _) (hfin _ _) _

theorem isNaN_nan : isNaN nanBits = true := by
  simp [isNaN, nanBits, ofBits]

theorem decoded_not_nan (b : UInt64) (n : Int) (hn : n.natAbs ≤ 32768) (h : ofBits b = decoded n) : isNaN b = false := by
  simp only [isNaN, h, decoded_eq n hn]

/-- What the player makes of the two values pushed for a sample. -/
def heardBits (s : UInt64 × UInt64) : Option (UInt64 × UInt64) := if isNaN s.1 then none else some s

theorem heardBits_pushed (bits : Int → UInt64) (o : Option (Int × Int)) (h : ∀ p, o = some p → isNaN (bits p.1) = false) :
    heardBits (pushedBits bits o) = o.map (fun p => (bits p.1, bits p.2)) := by
  cases o with
  | none => simp [heardBits, pushedBits, isNaN_nan]
  | some p => simp [heardBits, pushedBits, h p rfl]

theorem stamped_vals {α : Type} (rate : Nat) (c : MS.ReadChunks.Chunk α) : (MS.ReadChunks.stamped rate c).map (·.val) = c.samples := by
  apply List.ext_getElem
  · simp [MS.ReadChunks.stamped]
  · intro i h1 h2
    simp [MS.ReadChunks.stamped]

/-- The samples of consecutive chunks are consecutive samples of what was pushed. -/
theorem requests_samples (cap size rate : Nat) (now delay : Int) (facts : List (MS.Fill.Act UInt64)) (f : MS.Fill.St UInt64)
    (hf : MS.Fill.run (MS.Fill.init cap) facts = some f) (hs : ∀ c ∈ f.chunks, c.2.1.length = size) (a n : Nat)
    (han : a + n ≤ f.chunks.length) :
    ((((MS.StreamMusic.messages now delay size rate f.chunks).map (fun m => chunkRequest m.1)).drop a).take n).flatMap
      (fun m => (queued m).samples) = (((MS.Fill.pushes facts).drop (a * size)).take (n * size)).map heardBits := by
  have hlen : (MS.StreamMusic.messages now delay size rate f.chunks).length = f.chunks.length := MS.StreamMusic.messagesFrom_length _ _ _ _ _
  have key : ∀ m, m < f.chunks.length → ∃ c, ((MS.StreamMusic.messages now delay size rate f.chunks).map (fun m => chunkRequest m.1))[m]? = some c ∧
      (queued c).samples = (((MS.Fill.pushes facts).drop (m * size)).take size).map heardBits := by
    intro m hm
    obtain ⟨q, i, g1, g2, -, -, -, -, -, g3, g4⟩ := MS.StreamMusic.C13_stamps now delay size rate cap facts f hf hs m hm
    refine ⟨chunkRequest q, by rw [List.getElem?_map, g1]; rfl, ?_⟩
    simp only [queued, chunkRequest, MS.Pipeline.combine_zip, g3, g4]
    rw [List.zip_map']
    rw [List.map_map]
    apply List.map_congr_left
    intro x _
    rfl
  generalize hM : (MS.StreamMusic.messages now delay size rate f.chunks).map (fun m => chunkRequest m.1) = M at key ⊢
  have hMl : M.length = f.chunks.length := by rw [← hM, List.length_map, hlen]
  clear hM
  induction n generalizing a with
  | zero => simp
  | succ n ih =>
    obtain ⟨c, c1, c2⟩ := key a (by omega)
    have hlt : a < M.length := by omega
    rw [List.drop_eq_getElem_cons hlt, List.take_succ_cons, List.flatMap_cons]
    rw [List.getElem?_eq_getElem hlt] at c1
    injection c1 with c1
    rw [c1, c2, ih (a + 1) (by omega), ← List.map_append]
    congr 1
    rw [show (n + 1) * size = size + n * size by rw [Nat.add_mul, Nat.one_mul, Nat.add_comm], List.take_add,
      List.drop_drop, Nat.add_mul a 1, Nat.one_mul]

/-- Everything audible in the stream belongs to a song. -/
theorem audio_of_song {α : Type} (songOf : String → Option (List α)) (cuts : List Nat) : ∀ (news : List (Nat × String × Nat)) (e : Bool)
    (out : List (Option α)), MS.Spec.Explained songOf cuts e news out → ∀ p, some p ∈ out → ∃ name l, songOf name = some l ∧ p ∈ l := by
  intro news
  induction news with
  | nil =>
    intro e out h p hp
    simp only [MS.Spec.Explained, MS.Spec.audio, List.filterMap_eq_nil_iff] at h
    have := h _ hp
    simp at this
  | cons x older ih =>
    obtain ⟨k, name, len⟩ := x
    intro e out h p hp
    obtain ⟨h1, h2, l, h3, -, h4, -⟩ := h
    rw [← List.take_append_drop k out] at hp
    rcases List.mem_append.1 hp with hp | hp
    · exact ih true _ h2 p hp
    · refine ⟨name, l, h3, h4.subset ?_⟩
      simp only [MS.Spec.audio, List.mem_filterMap]
      exact ⟨some p, hp, rfl⟩

theorem asChunk_filter : ∀ (ms : List Msg) (qs : List QueueChunkRequest),
    ms.filter (fun m => decide (m.mtype = .queueChunkRequest)) = qs.map .queueChunkRequest → ms.filterMap asChunk = qs := by
  intro ms
  induction ms with
  | nil => intro qs h; cases qs with | nil => rfl | cons => simp at h
  | cons m ms ih =>
    intro qs h
    by_cases hm : m.mtype = .queueChunkRequest
    · rw [List.filter_cons_of_pos (by simp [hm])] at h
      cases qs with
      | nil => simp at h
      | cons q qs =>
        simp only [List.map_cons, List.cons.injEq] at h
        obtain ⟨rfl, h⟩ := h
        simp [asChunk, ih qs h]
    · rw [List.filter_cons_of_neg (by simp [hm])] at h
      rw [List.filterMap_cons, ih qs h]
      cases m <;> first | rfl | exact absurd rfl hm

/-- C112. For every schedule of the server's loop, of the chunking, of the transport (any fragmentation of the bytes, any other
messages between the audio messages), of the player's goroutines and clock, and all volumes set meanwhile: if the player
handles the audio messages from the `a`-th on in order, the bytes it writes to its sound device are, as 16 bit stereo, silence
(0) or samples of the recording at the volume of the moment (`heard`, C108), both channels of the same sample, in the
order of the stream and none twice. -/
theorem C112_bytes (c : MS.StreamLoop.Cfg (Int × Int)) (songs : List String) (acts : List MS.StreamLoop.Act) (s : MS.StreamLoop.St (Int × Int))
    (hserver : MS.StreamLoop.run c (MS.StreamLoop.init songs) acts = some s)
    (hlev : ∀ name l, c.dec name = some l → ∀ p ∈ l, (-32768 ≤ p.1 ∧ p.1 ≤ 32767) ∧ (-32768 ≤ p.2 ∧ p.2 ≤ 32767))
    (bits : Int → UInt64) (hbits : ∀ n, -32768 ≤ n → n ≤ 32767 → ofBits (bits n) = decoded n)
    (cap size rate : Nat) (now delay : Int) (facts : List (MS.Fill.Act UInt64)) (f : MS.Fill.St UInt64)
    (hf : MS.Fill.run (MS.Fill.init cap) facts = some f) (hp : MS.Fill.pushes facts <+: s.out.map (pushedBits bits))
    (hs : ∀ c ∈ f.chunks, c.2.1.length = size)
    (a n : Nat) (han : a + n ≤ f.chunks.length)
    (z : Zlib) (maxAlloc : Nat) (ha : maxAlloc < 2 ^ 63) (ms : List Msg) (ws : List Bytes) (hfr : Frames z maxAlloc ms ws)
    (hms : ms.filter (fun m => decide (m.mtype = .queueChunkRequest)) =
      ((((MS.StreamMusic.messages now delay size rate f.chunks).map (fun m => chunkRequest m.1)).drop a).take n).map .queueChunkRequest)
    (segs : List Bytes) (hsegs : segs.flatten = ws.flatten)
    (racts : List (MS.ReadChunks.Act (UInt64 × UInt64))) (r : MS.ReadChunks.St (UInt64 × UInt64)) (hr : MS.ReadChunks.run (MS.ReadChunks.init rate) racts = some r)
    (harr : MS.ReadChunks.arrivals racts = ((handleConnection z maxAlloc segs).1.filterMap asChunk).map queued)
    (buffer : List (TS (UInt64 × UInt64))) (hbuf : buffer <+: r.adds)
    (len : Nat) (volumes : Nat → Nat → UInt64) (hfin : ∀ k j, ∃ z, ofBits (volumes k j) = .fin z) (clock : List Int) (old bytes : List Int)
    (hold : old.length = 4 * len) (hdev : device rate len volumes 0 clock true buffer old = some bytes) :
    ∃ (played : List (Option (Int × Int))) (vs : List (UInt64 × UInt64)),
      bytes.length = 4 * (len * clock.length) ∧ played.length = len * clock.length ∧ vs.length = len * clock.length ∧
      (∀ v ∈ vs, ∃ k j, v = (volumes k (2 * j), volumes k (2 * j + 1))) ∧
      levelsOf bytes = List.zipWith (fun v o => level v (o.map (fun p => (bits p.1, bits p.2)))) vs played ∧
      (audible played).Sublist (MS.Spec.audio (s.out.drop (a * size))) ∧
      (∀ p, some p ∈ s.out → ∃ name l, c.dec name = some l ∧ p ∈ l) := by
  have hsong := audio_of_song c.dec s.cuts _ _ _ (MS.StreamLoop.C08_stream_explained c songs acts s hserver)
  have hnn : ∀ o ∈ s.out, heardBits (pushedBits bits o) = o.map (fun p => (bits p.1, bits p.2)) := by
    intro o ho
    apply heardBits_pushed
    intro p hp
    subst hp
    obtain ⟨name, l, h1, h2⟩ := hsong p ho
    obtain ⟨h3, h4⟩ := (hlev name l h1 p h2).1
    exact decoded_not_nan _ p.1 (by omega) (hbits p.1 h3 h4)
  obtain ⟨out, sy', rest, d1, d2, vs, d3, d4, d5⟩ := device_levels rate len volumes hfin clock 0 true buffer old bytes hold hdev
  obtain ⟨l1, consumed, l2, l3⟩ := MS.Streamer.C14_in_order rate len clock true buffer out sy' rest d1
  -- the samples consumed are among those of the chunks
  rw [C24_boundaries z maxAlloc ha ms ws hfr segs hsegs, asChunk_filter ms _ hms] at harr
  have hpre := MS.ReadChunks.C20_adds_prefix rate racts r hr
  have hv : (consumed.map (·.val)).Sublist ((s.out.drop (a * size)).map (fun o => o.map (fun p => (bits p.1, bits p.2)))) := by
    have h1 : consumed.Sublist ((MS.ReadChunks.arrivals racts).flatMap (MS.ReadChunks.stamped rate)) := by
      refine List.Sublist.trans ?_ ((hbuf.trans hpre).sublist)
      rw [← l2]; exact List.sublist_append_left _ _
    have h2 := h1.map (·.val)
    rw [List.map_flatMap, harr, List.flatMap_map] at h2
    simp only [stamped_vals] at h2
    rw [requests_samples cap size rate now delay facts f hf hs a n han] at h2
    refine h2.trans ?_
    obtain ⟨t, ht⟩ := hp
    have e : MS.Fill.pushes facts = (s.out.take (MS.Fill.pushes facts).length).map (pushedBits bits) := by
      rw [List.map_take, ← ht]; simp
    rw [e, ← List.map_drop, ← List.map_take, List.map_map]
    have sub : (((s.out.take (MS.Fill.pushes facts).length).drop (a * size)).take (n * size)).Sublist (s.out.drop (a * size)) :=
      (List.take_sublist _ _).trans (by rw [List.drop_take]; exact List.take_sublist _ _)
    rw [List.map_congr_left (f := heardBits ∘ pushedBits bits) (g := fun o : Option (Int × Int) => o.map (fun p : Int × Int => (bits p.1, bits p.2)))
      (fun o ho => hnn o ((List.drop_sublist _ _).subset (sub.subset ho)))]
    exact sub.map _
  -- the recorded samples behind what is heard
  have hsub : ((audible out).map some).Sublist ((s.out.drop (a * size)).map (fun o => o.map (fun p => (bits p.1, bits p.2)))) := l3.trans hv
  have hlift : ∀ (out : List (Option (UInt64 × UInt64))) (src : List (Option (Int × Int))),
      ((audible out).map some).Sublist (src.map (fun o => o.map (fun p => (bits p.1, bits p.2)))) →
      ∃ played : List (Option (Int × Int)), out = played.map (fun o => o.map (fun p => (bits p.1, bits p.2))) ∧
        (audible played).Sublist (MS.Spec.audio src) := by
    intro out src h
    obtain ⟨l', g1, g2⟩ := List.sublist_map_iff.1 h
    -- l' : the samples themselves
    have : ∃ pl : List (Int × Int), l' = pl.map some ∧ audible out = pl.map (fun p => (bits p.1, bits p.2)) := by
      clear h g1
      generalize audible out = A at g2
      induction A generalizing l' with
      | nil => simp at g2; exact ⟨[], by simp [g2], rfl⟩
      | cons x A ih =>
        cases l' with
        | nil => simp at g2
        | cons o l' =>
          simp only [List.map_cons, List.cons.injEq] at g2
          obtain ⟨pl, p1, p2⟩ := ih l' g2.2
          cases o with
          | none => simp at g2
          | some p =>
            have := g2.1
            simp only [Option.map_some, Option.some.injEq] at this
            exact ⟨p :: pl, by simp [p1], by simp [p2, this]⟩
    obtain ⟨pl, p1, p2⟩ := this
    have hsrc : pl.Sublist (MS.Spec.audio src) := by
      have := (p1 ▸ g1).filterMap (fun x : Option (Int × Int) => x)
      rw [List.filterMap_map] at this
      have e2 : (fun x : Option (Int × Int) => x) = id := rfl
      simpa [MS.Spec.audio, Function.comp_def, e2] using this
    clear h g1 g2 p1
    have : ∃ played : List (Option (Int × Int)), out = played.map (fun o => o.map (fun p => (bits p.1, bits p.2))) ∧ audible played = pl := by
      clear hsrc
      induction out generalizing pl with
      | nil => refine ⟨[], rfl, ?_⟩; cases pl with | nil => rfl | cons => simp [audible] at p2
      | cons o out ih =>
        cases o with
        | none =>
          obtain ⟨pd, q1, q2⟩ := ih pl (by simpa [audible] using p2)
          exact ⟨none :: pd, by simp [q1], by simpa [audible] using q2⟩
        | some x =>
          cases pl with
          | nil => simp [audible] at p2
          | cons p pl =>
            simp only [audible, List.filterMap_cons, id_def, List.map_cons, List.cons.injEq] at p2
            obtain ⟨pd, q1, q2⟩ := ih pl p2.2
            exact ⟨some p :: pd, by simp [q1, p2.1], by simp only [audible, List.filterMap_cons, id_def] at q2 ⊢; rw [q2]⟩
    obtain ⟨played, q1, q2⟩ := this
    exact ⟨played, q1, q2 ▸ hsrc⟩
  obtain ⟨played, q1, q2⟩ := hlift out _ hsub
  have hpl : played.length = out.length := by rw [q1]; simp
  refine ⟨played, vs, by rw [d2, l1], by rw [hpl, l1], by rw [d3, l1], d4, ?_, q2, hsong⟩
  rw [d5, q1, List.zipWith_map_right]

/-- C112, at full volume: for a recording whose levels stay within -32766 .. 32766 the sound device gets silence or the
levels of the recording unchanged, in the order of the stream and none twice. -/
theorem C112_bit_for_bit (c : MS.StreamLoop.Cfg (Int × Int)) (songs : List String) (acts : List MS.StreamLoop.Act) (s : MS.StreamLoop.St (Int × Int))
    (hserver : MS.StreamLoop.run c (MS.StreamLoop.init songs) acts = some s)
    (hlev : ∀ name l, c.dec name = some l → ∀ p ∈ l, (-32766 ≤ p.1 ∧ p.1 ≤ 32766) ∧ (-32766 ≤ p.2 ∧ p.2 ≤ 32766))
    (bits : Int → UInt64) (hbits : ∀ n, -32768 ≤ n → n ≤ 32767 → ofBits (bits n) = decoded n)
    (cap size rate : Nat) (now delay : Int) (facts : List (MS.Fill.Act UInt64)) (f : MS.Fill.St UInt64)
    (hf : MS.Fill.run (MS.Fill.init cap) facts = some f) (hp : MS.Fill.pushes facts <+: s.out.map (pushedBits bits))
    (hs : ∀ c ∈ f.chunks, c.2.1.length = size)
    (a n : Nat) (han : a + n ≤ f.chunks.length)
    (z : Zlib) (maxAlloc : Nat) (ha : maxAlloc < 2 ^ 63) (ms : List Msg) (ws : List Bytes) (hfr : Frames z maxAlloc ms ws)
    (hms : ms.filter (fun m => decide (m.mtype = .queueChunkRequest)) =
      ((((MS.StreamMusic.messages now delay size rate f.chunks).map (fun m => chunkRequest m.1)).drop a).take n).map .queueChunkRequest)
    (segs : List Bytes) (hsegs : segs.flatten = ws.flatten)
    (racts : List (MS.ReadChunks.Act (UInt64 × UInt64))) (r : MS.ReadChunks.St (UInt64 × UInt64)) (hr : MS.ReadChunks.run (MS.ReadChunks.init rate) racts = some r)
    (harr : MS.ReadChunks.arrivals racts = ((handleConnection z maxAlloc segs).1.filterMap asChunk).map queued)
    (buffer : List (TS (UInt64 × UInt64))) (hbuf : buffer <+: r.adds)
    (len : Nat) (volumes : Nat → Nat → UInt64) (hfull : ∀ k j, ofBits (volumes k j) = .fin one) (clock : List Int) (old bytes : List Int)
    (hold : old.length = 4 * len) (hdev : device rate len volumes 0 clock true buffer old = some bytes) :
    ∃ played : List (Option (Int × Int)),
      bytes.length = 4 * (len * clock.length) ∧ levelsOf bytes = played.map (fun o => o.getD (0, 0)) ∧
      (audible played).Sublist (MS.Spec.audio (s.out.drop (a * size))) := by
  obtain ⟨played, vs, h1, h2, h3, h4, h5, h6, h7⟩ := C112_bytes c songs acts s hserver
    (fun name l hl p hp => by have := hlev name l hl p hp; omega) bits hbits cap size rate now delay facts f hf hp hs a n han z maxAlloc ha
    ms ws hfr hms segs hsegs racts r hr harr buffer hbuf len volumes (fun k j => ⟨_, hfull k j⟩) clock old bytes hold hdev
  refine ⟨played, h1, ?_, h6⟩
  rw [h5]
  apply List.ext_getElem
  · simp [h2, h3]
  intro i i1 i2
  simp only [List.getElem_zipWith, List.getElem_map]
  have hi : i < played.length := by simpa using i2
  obtain ⟨k, j, hv⟩ := h4 vs[i] (List.getElem_mem (by omega))
  rw [hv]
  cases ho : played[i] with
  | none => rfl
  | some p =>
    have hmem : p ∈ audible played := by
      simp only [audible, List.mem_filterMap]
      exact ⟨some p, ho ▸ List.getElem_mem hi, rfl⟩
    have hm := h6.subset hmem
    simp only [MS.Spec.audio, List.mem_filterMap, id_def] at hm
    obtain ⟨o, ho2, rfl⟩ := hm
    obtain ⟨name, l, g1, g2⟩ := h7 p ((List.drop_sublist _ _).subset ho2)
    obtain ⟨⟨b1, b2⟩, b3, b4⟩ := hlev name l g1 p g2
    simp only [Option.map_some, level, Option.getD_some]
    rw [C109_bit_for_bit_partial _ _ p.1 (hfull _ _) (hbits p.1 (by omega) (by omega)) (by omega) (by omega),
      C109_bit_for_bit_partial _ _ p.2 (hfull _ _) (hbits p.2 (by omega) (by omega)) (by omega) (by omega)]

/-! ## Non-vacuity: a song of two samples, the first full scale on the left, the second full scale on the right, at volume 1/2 -/

/-- One song of two samples, breaks of one sample. -/
def loud : MS.StreamLoop.Cfg (Int × Int) := { dec := fun _ => some [(32767, 0), (0, 32767)], brk := 1 }

theorem decoded_zero : decoded 0 = .fin 0 := by
  rw [decoded_eq 0 (by omega)]
  have := round_exact (q := 32767) (by omega) rep_zero
  simpa using this

theorem decoded_max : decoded 32767 = .fin one := by
  rw [decoded_eq 32767 (by omega)]
  have := round_exact (q := 32767) (by omega) rep_one
  rw [Nat.mul_comm] at this
  have h : (32767 : Int).natAbs = 32767 := rfl
  rw [h, this]
  simp

/-- There is a decoder as assumed, with the patterns of 0.0 and 1.0 for the levels 0 and 32767. -/
theorem decoder_exists : ∃ bits : Int → UInt64, (∀ n, -32768 ≤ n → n ≤ 32767 → ofBits (bits n) = decoded n) ∧ bits 0 = 0 ∧
    bits 32767 = 0x3FF0000000000000 := by
  refine ⟨fun n => if n = 0 then 0 else if n = 32767 then 0x3FF0000000000000 else
    if h : n.natAbs ≤ 32768 then (decoded_exists n h).choose else 0, ?_, rfl, rfl⟩
  intro n h1 h2
  show ofBits (if n = 0 then 0 else if n = 32767 then 0x3FF0000000000000 else
    if h : n.natAbs ≤ 32768 then (decoded_exists n h).choose else 0) = decoded n
  by_cases h0 : n = 0
  · rw [if_pos h0, h0, decoded_zero]; simp [ofBits]
  rw [if_neg h0]
  by_cases hm : n = 32767
  · rw [if_pos hm, hm, decoded_max, bits_one]
  rw [if_neg hm]
  rw [dif_pos (by omega)]
  exact (decoded_exists n (by omega)).choose_spec

/-- The chunks of two samples: the song; the break and the first sample again. -/
def loudChunks : List (Nat × List UInt64 × List UInt64) :=
  [(0, [0x3FF0000000000000, 0], [0, 0x3FF0000000000000]), (2, [nanBits, 0x3FF0000000000000], [nanBits, 0])]

def loudPushes : List (MS.Fill.Act UInt64) :=
  [(0x3FF0000000000000, 0), (0, 0x3FF0000000000000), (nanBits, nanBits), (0x3FF0000000000000, 0)].flatMap
    (fun p => [.pushLow p.1 p.2, .pushHigh]) ++
  (List.replicate 2 [.fill 2, .readLow, .readHigh, .readHigh, .readLow, .ret]).flatten

/-- The server. -/
example (bits : Int → UInt64) (h0 : bits 0 = 0) (h1 : bits 32767 = 0x3FF0000000000000) :
    ∃ s, MS.StreamLoop.run loud (MS.StreamLoop.init ["a"]) (.setPlaying true :: List.replicate 14 .loop) = some s ∧
    MS.Fill.pushes loudPushes <+: s.out.map (pushedBits bits) := by
  refine ⟨_, rfl, ?_⟩
  show MS.Fill.pushes loudPushes <+: List.map (pushedBits bits) [some (32767, 0), some (0, 32767), none, some (32767, 0), some (0, 32767)]
  simp [pushedBits, h0, h1, loudPushes, MS.Fill.pushes, List.replicate]

/-- The chunks. -/
example : ∃ f, MS.Fill.run (MS.Fill.init 6) loudPushes = some f ∧ f.chunks = loudChunks ∧ ∀ c ∈ f.chunks, c.2.1.length = 2 :=
  ⟨_, rfl, rfl, by decide⟩

/-- The message for the first chunk. -/
def loudRequest : QueueChunkRequest :=
  { startTime := 15, chunkId := 0, sampleLow := [0x3FF0000000000000, 0], sampleHigh := [0, 0x3FF0000000000000], firstSampleIndex := 0 }

example : ((MS.StreamMusic.messages 5 10 2 1000 loudChunks).map (fun m => chunkRequest m.1)).take 1 = [loudRequest] := by decide

/-- The bytes of the message. -/
def loudInner : Bytes :=
  [8, 15, 26, 16, 0, 0, 0, 0, 0, 0, 0xF0, 0x3F, 0, 0, 0, 0, 0, 0, 0, 0, 34, 16, 0, 0, 0, 0, 0, 0, 0, 0, 0, 0, 0, 0, 0, 0, 0xF0, 0x3F]

def loudFrame : Bytes :=
  [65, 0, 0, 0, 0, 0, 0, 0] ++ [10, 22] ++ ascii "comm.QueueChunkRequest" ++ [18, 39, 0x78] ++ loudInner

theorem loud_inner : marshal (.queueChunkRequest loudRequest) = some loudInner := by
  have h15 : Int64.toUInt64 15 = 15 := by decide
  have h0 : Int64.toUInt64 0 = 0 := by decide
  simp [h15, h0, loudRequest, loudInner, marshal, validStrings, fields, eI64, eU64, ePacked, encFields, encField, encVal, encVarint, wireType, leBytes]

theorem loud_frame : toWire toyZlib (.queueChunkRequest loudRequest) = some loudFrame := by
  rw [toWire, loud_inner]
  simp [loudFrame, loudInner, marshal, validStrings, fields, eBytes, encFields, encField, encVal, encVarint, wireType, toyZlib, Msg.mtype,
    typeName, ascii, utf8Valid, leBytes]

/-- Its frame. -/
theorem loud_frames : Frames toyZlib 1000 [.queueChunkRequest loudRequest] [loudFrame] :=
  .cons loud_inner (by simp [loudInner]) loud_frame (by simp [loudFrame, loudInner, ascii]) .nil

/-- The chunk the player queues. -/
theorem loud_queued : queued loudRequest = ⟨15, [some (0x3FF0000000000000, 0), some (0, 0x3FF0000000000000)]⟩ := by
  have h1 : isNaN 0 = false := by simp [isNaN, ofBits]
  have h2 : isNaN 0x3FF0000000000000 = false := by simp [isNaN, bits_one]
  simp [queued, loudRequest, MS.Pipeline.combine_zip, h1, h2]

/-- What it buffers. -/
def loudBuffer : List (TS (UInt64 × UInt64)) := [⟨some (0x3FF0000000000000, 0), 15⟩, ⟨some (0, 0x3FF0000000000000), 1000015⟩]

example : ∃ r, MS.ReadChunks.run (MS.ReadChunks.init 1000) (.queue (queued loudRequest) :: List.replicate 5 .reader) = some r ∧
    r.adds = loudBuffer := by
  rw [loud_queued]
  exact ⟨_, rfl, by decide⟩

/-- What it writes to the sound device at volume 1/2, called too late for the first sample: the second sample, half as loud. -/
example : ∃ bytes, device 1000 1 (fun _ _ => 0x3FE0000000000000) 0 [1000015] true loudBuffer [9, 9, 9, 9] = some bytes ∧
    levelsOf bytes = [(0, 16384)] := by
  have hst : MS.Streamer.stream 1000 1 1000015 true loudBuffer = some ([some (0, 0x3FF0000000000000)], false, []) := by
    simp [loudBuffer, MS.Streamer.stream, MS.Streamer.streamSync, MS.Streamer.skipNaN, MS.Streamer.samplesDuration, MS.Streamer.dropLate,
      MS.Streamer.streamDirect]
  refine ⟨_, by simp only [device, hst]; rfl, ?_⟩
  have hb := C108_buffer (fun _ => 0x3FE0000000000000) [(0, 0x3FF0000000000000)] [9, 9, 9, 9] rfl
  simp only [List.map_cons, List.map_nil, written, List.append_nil, hb]
  have q := levelsOf_quads (fun (j : Nat) (s : UInt64 × UInt64) => ((0x3FE0000000000000 : UInt64), s.1, (0x3FE0000000000000 : UInt64), s.2))
    [(0, 0x3FF0000000000000)] 0
  simp only [Nat.zero_add] at q
  rw [q]
  have e1 : heard 0x3FE0000000000000 0 = 0 := heard_silence _ ⟨_, bits_half⟩
  have e2 : heard 0x3FE0000000000000 0x3FF0000000000000 = 16384 := by
    decide +kernel
  simp [e1, e2]

end MS.SoundPath
