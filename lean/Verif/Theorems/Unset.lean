import Verif.Theorems.Content
/-!
C58 in general: a text without a colour is black, and a text with the colour black takes the colour of what was drawn before.
-/
namespace Verif

/-- C58 for texts inserted without a colour (a nil pointer): directly before the text the fill colour is set to black, whatever was drawn
before. -/
theorem C58_default_partial {c : TextContent} {f : FontState} {idx : Int} {s : Bytes} (hc : c.color = none) (h : c.stream f idx = .ok s) :
    ∃ pre post : Bytes, s = pre ++ b!" Tf\n0.00 0.00 0.00 rg\n[<" ++ post := by
  obtain ⟨pos, t, rest, hs, _⟩ := stream_parts h
  have hcol : colorOp c.rgb = b!"0.00 0.00 0.00 rg\n" := by
    unfold TextContent.rgb
    rw [hc]
    decide +kernel
  refine ⟨b!"BT\n" ++ pos ++ b!" TD\n/F" ++ itoa idx ++ b!" " ++ itoa c.fontSize, t ++ b!"ET\n" ++ rest, ?_⟩
  rw [hs, hcol, show b!" Tf\n0.00 0.00 0.00 rg\n[<" = b!" Tf\n" ++ (b!"0.00 0.00 0.00 rg\n" ++ b!"[<") by decide +kernel]
  simp only [List.append_assoc]

-- a text without a colour
example : (contentText none).stream contentFont 3 = .ok b!"BT\n115.00 162.50 TD\n/F3 10 Tf\n0.00 0.00 0.00 rg\n[<0001>] TJ\nET\n\r\n" := by
  decide +kernel

/-- C58 is violated for every text: with the colour black the text follows the choice of the font at once, so that no colour is set; the same
text without a colour does set it. -/
theorem C58_refuted_all {c : TextContent} {f : FontState} {idx : Int} {s : Bytes} (hc : c.color = some (0, 0, 0)) (h : c.stream f idx = .ok s) :
    ∃ pos post : Bytes, s = b!"BT\n" ++ pos ++ b!" TD\n/F" ++ itoa idx ++ b!" " ++ itoa c.fontSize ++ b!" Tf\n[<" ++ post := by
  obtain ⟨pos, t, rest, hs, _⟩ := stream_parts h
  have hcol : colorOp c.rgb = [] := by
    unfold TextContent.rgb
    rw [hc]
    decide +kernel
  refine ⟨pos, t ++ b!"ET\n" ++ rest, ?_⟩
  rw [hs, hcol, show b!" Tf\n[<" = b!" Tf\n" ++ b!"[<" by decide +kernel]
  simp only [List.append_assoc, List.nil_append]

example : (contentText (some (0, 0, 0))).stream contentFont 3 = .ok b!"BT\n115.00 162.50 TD\n/F3 10 Tf\n[<0001>] TJ\nET\n\r\n" := by
  decide +kernel

end Verif
