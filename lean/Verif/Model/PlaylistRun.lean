import Verif.Model.StreamLoop
import Verif.Model.Fill
/-!
# playback/playlist.go: the playlist sample by sample, with its channels and its reader

`Verif.Model.StreamLoop` pushes a block in one step and leaves out the channels; `Verif.Model.Fill` has the channels, with a pusher
that pushes anything. Here both are one machine: every channel operation of the streaming goroutine and of `Fill` is a step of its
own, and commands come in between, also in the middle of a block. `sampleIndexWrite` is a counter.

A sample is `some (low, high)` or `none`, which is pushed as a pair of NaNs.
-/
namespace MS.PlaylistRun
open MS.StreamLoop

/-- `pl.out` are the samples pushed completely (not in the program, to state the properties); `index` is `sampleIndexWrite`; `push`
what is left of the block being pushed, the first of them being half pushed if the channels have a pending value.
(playback/playlist.go:16-35) -/
structure St (β : Type) where
  pl : StreamLoop.St (β × β)
  index : Nat
  push : List (Option (β × β))
  chans : Fill.St β

/-- playback/playlist.go:253-266 `NewPlaylist` with channels for `cap` values -/
def init {β : Type} (cap : Nat) (songs : List String) : St β :=
  { pl := StreamLoop.init songs, index := 0, push := [], chans := Fill.init cap }

/-- The two floats of a sample. (playback/playlist.go:110, 116, 122) -/
def value {β : Type} (nan : β) : Option (β × β) → β × β
  | some x => x
  | none => (nan, nan)

/-- A step of the streaming goroutine that is not inside `pushSample`: what is to be pushed becomes `push`.
(playback/playlist.go:41-124, 132-137) -/
def control {β : Type} (c : Cfg (β × β)) (s : St β) : Option (St β) :=
  match s.pl.pc with
  | .top =>
    if s.pl.songs.length = 0 then some { s with push := List.replicate noSongNan none }
    else
      let pos := s.pl.position.tmod s.pl.songs.length
      match Playlist.goGet s.pl.songs pos with
      | .ok song => some { s with pl := { s.pl with pc := .store pos song } }
      | .panic => some { s with pl := { s.pl with pc := .crashed } }
  | .store pos song =>
    if song = "" then some { s with pl := { s.pl with position := pos, pc := .top }, push := List.replicate noSongNan none }
    else some { s with pl := { s.pl with position := pos, pc := .opening song } }
  | .opening song =>
    match c.dec song with
    | none => some { s with pl := { s.pl with current := song, pc := .incR true } }
    | some l =>
      some { s with pl := { s.pl with current := song, pc := .h1 l, news := s.pl.news ++ [(s.index, song, l.length)] } }
  | .h1 rem =>
    if s.pl.playing ≠ s.pl.playingLast then some { s with pl := { s.pl with pc := .h2 rem } }
    else some { s with pl := { s.pl with pc := .body rem } }
  | .h2 rem => some { s with pl := { s.pl with playingLast := s.pl.playing, pc := .h3 rem } }
  | .h3 rem => some { s with pl := { s.pl with pauses := s.pl.pauses ++ [(s.pl.playing, s.index)], pc := .body rem } }
  | .body rem =>
    if s.pl.playing then
      let n := min bufSize rem.length
      some { s with
        pl := { s.pl with blocks := s.pl.blocks ++ [(s.index, n)], pc := .chk (rem.drop n) n (0 < n) }
        push := (rem.take n).map some }
    else
      some { s with
        pl := { s.pl with blocks := s.pl.blocks ++ [(s.index, bufSize)], pc := .chk rem bufSize true }
        push := List.replicate bufSize none }
  | .chk rem n ok =>
    if 0 < s.pl.tokens then
      some { s with pl := { s.pl with tokens := s.pl.tokens - 1, pc := .brk, cuts := s.pl.cuts ++ [s.pl.news.length] } }
    else if ok = false ∨ n < bufSize then some { s with pl := { s.pl with pc := .incR false } }
    else some { s with pl := { s.pl with pc := .h1 rem } }
  | .incR skip => some { s with pl := { s.pl with pc := .incW skip s.pl.position } }
  | .incW skip v => some { s with pl := { s.pl with position := v + 1, pc := if skip then .top else .brk } }
  | .brk => some { s with pl := { s.pl with pc := .top }, push := List.replicate c.brk none }
  | .crashed => none

/-- The next channel operation of `pushSample`, and after the second one `sampleIndexWrite++`. `none`: the channel is full.
(playback/playlist.go:126-130) -/
def pushNext {β : Type} (nan : β) (s : St β) (x : Option (β × β)) (xs : List (Option (β × β))) : Option (St β) :=
  match s.chans.pend with
  | none => (Fill.step s.chans (.pushLow (value nan x).1 (value nan x).2)).map fun ch => { s with chans := ch }
  | some _ =>
    (Fill.step s.chans .pushHigh).map fun ch =>
      { s with chans := ch, push := xs, index := s.index + 1, pl := { s.pl with out := s.pl.out ++ [x] } }

/-- Who goes on: the streaming goroutine, a command, or `Fill` and its two goroutines. (playback/playlist.go:41-243) -/
inductive Act where
  | loop
  | jumpWrite (p : Int)
  | jumpToken
  | setPlaying (b : Bool)
  | edit (songs : List String)
  | fill (n : Nat)
  | readLow
  | readHigh
  | ret
  deriving Repr

/-- One step; `none` if it cannot be done now. After a crash nothing goes on. (playback/playlist.go:41-243) -/
def step {β : Type} (nan : β) (c : Cfg (β × β)) (s : St β) (a : Act) : Option (St β) :=
  match s.pl.pc with
  | .crashed => none
  | _ =>
    match a with
    | .loop =>
      match s.push with
      | [] => control c s
      | x :: xs => pushNext nan s x xs
    | .jumpWrite p => some { s with pl := { s.pl with position := p, inflight := s.pl.inflight + 1 } }
    | .jumpToken =>
      if 0 < s.pl.inflight ∧ s.pl.tokens < 2 then
        some { s with pl := { s.pl with inflight := s.pl.inflight - 1, tokens := s.pl.tokens + 1 } }
      else none
    | .setPlaying b => some { s with pl := { s.pl with playing := b } }
    | .edit songs => some { s with pl := { s.pl with songs := songs } }
    | .fill n => (Fill.step s.chans (.fill n)).map fun ch => { s with chans := ch }
    | .readLow => (Fill.step s.chans .readLow).map fun ch => { s with chans := ch }
    | .readHigh => (Fill.step s.chans .readHigh).map fun ch => { s with chans := ch }
    | .ret => (Fill.step s.chans .ret).map fun ch => { s with chans := ch }

/-- A schedule. (playback/playlist.go:41-243) -/
def run {β : Type} (nan : β) (c : Cfg (β × β)) (s : St β) : List Act → Option (St β)
  | [] => some s
  | a :: as =>
    match step nan c s a with
    | some s' => run nan c s' as
    | none => none

end MS.PlaylistRun
