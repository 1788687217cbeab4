/- What a reader finds on the page of a file. -/
import Verif.Layout.WrapTheorems
namespace Verif.Layout
open Verif.Style Verif.Style.Spec Verif.Text Verif.Pdf Verif.Dom

/-- A reader can read the file. It has one page, of 600 by 800 pixels, and what is painted on it are these shapes, in this order. -/
def PageShows {R Er : Type} (P : Painter R Er) (readReal : List Byte → Option R) (bytes : List Byte) (shapes : List Shape) : Prop :=
  ∃ m file page painted, (∀ fuel, m ≤ fuel → readDocument readReal fuel bytes = some file) ∧ file.pages = [page] ∧
    page.mediaBox = [.int 0, .int 0, .real (P.floats.mul (P.round 600) P.floats.scaleX), .real (P.floats.mul (P.round 800) P.floats.scaleY)] ∧
    (∃ m, ∀ fuel, m ≤ fuel →
      paintContents readReal P.floats.zero P.floats.one (gsAlpha file.extGState) fuel page.contents = some painted) ∧
    AllMatch (fun p shape => Verif.Pdf.Matches P.floats (fun _ name => ∃ id, dictGet file.fonts name = some (.ref id 0) ∧
      IsFont readReal bytes P.fontView id) p (shape.expected P)) painted shapes

theorem toPdfBytes_shows {σ R Er Err : Type} {P : Painter R Er} {E : Engine σ} {font : FontApi Rat Err} {d : Document}
    {readReal : List Byte → Option R} (hd : RealText P.floats.dtoa readReal) (hfl : FloatLaws P.floats)
    (hv : P.fontView.Valid) (hg : ∀ c g, font.glyphId c = .ok g → g < 65536) {fuel : Nat} {schedule : Oracle} {bytes : List Byte}
    (hb : toPdfBytes P E font d fuel schedule = some bytes) (hs : bytes.length ≤ 2 ^ 32) :
    ∃ fragments placed, layoutDocument E font d fuel schedule ⟨600, 800⟩ = some fragments ∧ Placed ⟨0, 0⟩ fragments placed ∧
      PageShows P readReal bytes (shapesOf P.ascender placed) := by
  unfold toPdfBytes at hb
  rcases hlay : layoutDocument E font d fuel schedule ⟨600, 800⟩ with _ | fragments
  · simp [hlay] at hb
  simp only [hlay] at hb
  rcases hdoc : paintDocument P fragments with _ | doc
  · simp [hdoc] at hb
  simp only [hdoc, Option.some.injEq] at hb
  subst hb
  obtain ⟨placed, hpl⟩ := Placed.exists fragments ⟨0, 0⟩
  refine ⟨fragments, placed, rfl, hpl, C46_page P hd hfl hv hpl ?_ hdoc hs⟩
  intro e he style rect segment hs g hgm
  unfold layoutDocument at hlay
  split at hlay
  · cases hlay
  · obtain ⟨hm, -⟩ := layoutRoot_shown hlay
    obtain ⟨c, hcg⟩ := made_glyphs hpl hm e he style rect segment hs g hgm
    exact hg c g hcg

end Verif.Layout
