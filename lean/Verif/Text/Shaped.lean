/- Model of `victor/src/text.rs`: shaped segments. -/
namespace Verif.Text

/-- What `ShapedSegment` uses of a font: `Font::glyph_id` and `Font::glyph_width` (fonts/mod.rs 143-169, modelled in
`Verif.Font.Cmap`), and addition of lengths. `R` is the type of lengths (`f32`), of which nothing is assumed; `Err` is
`FontError`. Panics of the font functions are not distinguished from errors here. -/
structure FontApi (R Err : Type) where
  glyphId : Nat → Except Err Nat
  glyphWidth : Nat → Except Err R
  zero : R
  add : R → R → R

variable {R Err : Type}

/-- text.rs 6-10, `ShapedSegment` (the font is a parameter). -/
structure ShapedSegment (R : Type) where
  glyphs : List Nat
  advanceWidth : R

/-- text.rs 12-15, `ShapedSegmentState`. -/
structure ShapedSegmentState (R : Type) where
  glyphs : Nat
  advanceWidth : R

/-- text.rs 36-42, `ShapedSegment::new_with_naive_shaping`. -/
def ShapedSegment.new (F : FontApi R Err) : ShapedSegment R := ⟨[], F.zero⟩

/-- text.rs 48-53, `append_char`: the new segment and the error, if any. The segment is not changed by a call that fails:
both `?` come before the assignments. -/
def ShapedSegment.appendChar (F : FontApi R Err) (s : ShapedSegment R) (ch : Nat) : ShapedSegment R × Option Err :=
  match F.glyphId ch with
  | .error e => (s, some e)
  | .ok id =>
    match F.glyphWidth id with
    | .error e => (s, some e)
    | .ok w => (⟨s.glyphs ++ [id], F.add s.advanceWidth w⟩, none)

/-- text.rs 44-46, `append`: `try_for_each` stops at the first error. -/
def ShapedSegment.append (F : FontApi R Err) (s : ShapedSegment R) : List Nat → ShapedSegment R × Option Err
  | [] => (s, none)
  | ch :: text =>
    match s.appendChar F ch with
    | (s, some e) => (s, some e)
    | (s, none) => s.append F text

/-- text.rs 30-34, `naive_shape`. -/
def ShapedSegment.naiveShape (F : FontApi R Err) (text : List Nat) : Except Err (ShapedSegment R) :=
  match (ShapedSegment.new F).append F text with
  | (_, some e) => .error e
  | (s, none) => .ok s

/-- text.rs 55-60, `save`. -/
def ShapedSegment.save (s : ShapedSegment R) : ShapedSegmentState R := ⟨s.glyphs.length, s.advanceWidth⟩

/-- text.rs 62-65, `restore`: `Vec::truncate` does nothing if the vector is not longer. -/
def ShapedSegment.restore (s : ShapedSegment R) (state : ShapedSegmentState R) : ShapedSegment R :=
  ⟨s.glyphs.take state.glyphs, state.advanceWidth⟩

/-- A use of one segment: appending characters, saving, restoring one of the saved states. -/
inductive Op where
  | append (text : List Nat)
  | save
  /-- Restore the state saved by the `k`-th of the saves that are still current (counted from the first); the saves made
  after it are no longer current. -/
  | restore (k : Nat)

/-- The segment and the current saved states, oldest first. -/
structure Session (R : Type) where
  segment : ShapedSegment R
  saved : List (ShapedSegmentState R)

/-- One use. -/
def Session.run (F : FontApi R Err) (s : Session R) : Op → Session R
  | .append text => { s with segment := (s.segment.append F text).1 }
  | .save => { s with saved := s.saved ++ [s.segment.save] }
  | .restore k =>
    match s.saved[k]? with
    | some state => ⟨s.segment.restore state, s.saved.take (k + 1)⟩
    | none => s

/-- A history of uses of a new segment. -/
def Session.runAll (F : FontApi R Err) (ops : List Op) : Session R :=
  ops.foldl (Session.run F) ⟨ShapedSegment.new F, []⟩

end Verif.Text
