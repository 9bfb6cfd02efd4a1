import Verif.Model.Slices
/-!
# The playlist as a list of songs, and copies of it as lists

No memory: every list is a value of its own. (`Act`, what is done, and `Res`, a result or a crash, are the model's.)
-/
namespace MS.SliceSpec
open MS.Slices (Act)

/-- The songs, and the lists that were handed out. -/
structure Vals where
  songs : List String
  copies : List (List String)

/-- What an action does to the values, and what is returned: positions are clipped; removing at the position right behind the
last song is the crash of C05. -/
def step (v : Vals) : Act → Res (Vals × List String)
  | .add song => .ok ({ v with songs := v.songs ++ [song] }, [])
  | .insert song i => .ok ({ v with songs := v.songs.insertIdx (min i.toNat v.songs.length) song }, [])
  | .remove i =>
    if v.songs = [] then .ok (v, [""])
    else if i = v.songs.length then .panic
    else
      let k := min i.toNat (v.songs.length - 1)
      .ok ({ v with songs := v.songs.eraseIdx k }, [v.songs.getD k ""])
  | .songs => .ok ({ v with copies := v.copies ++ [v.songs] }, [])
  | .write j i x =>
    match v.copies[j]? with
    | none => .ok (v, [])
    | some l => if i < l.length then .ok ({ v with copies := v.copies.set j (l.set i x) }, []) else .panic

/-- Many actions: the values in the end, and all that was returned. -/
def run (v : Vals) : List Act → Res (Vals × List String)
  | [] => .ok (v, [])
  | a :: as => (step v a).bind fun r => (run r.1 as).map fun r' => (r'.1, r.2 ++ r'.2)

/-- The same for toggles and chunks: append, cut off the front, sort. -/
def opStep {α : Type} (l : List α) : Slices.Op α → Res (List α)
  | .append v _ => .ok (l ++ [v])
  | .cut k => if l.length < k then .panic else .ok (l.drop k)
  | .sort f => .ok (f l)

/-- A history of these. -/
def opRun {α : Type} (l : List α) : List (Slices.Op α) → Res (List α)
  | [] => .ok l
  | o :: os => (opStep l o).bind fun l => opRun l os

/-- Sorting only permutes. -/
def Permutes {α : Type} : Slices.Op α → Prop
  | .sort f => ∀ l, (f l).Perm l
  | _ => True

end MS.SliceSpec
