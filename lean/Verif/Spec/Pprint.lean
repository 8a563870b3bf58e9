import Verif.Spec.Table

/-! # What `pprint` is supposed to show -/
namespace Coral
namespace Table

/-- Where column `j` starts, if the columns have the widths `ws` and three characters are between two columns. -/
def colStart (ws : List Nat) (j : Nat) : Nat := ((ws.take j).map (· + 3)).sum

/-- The line shows the texts in columns of these widths: each text is in its column, at the left and in full, with nothing but `fill` after it; `bar` is between
columns; and nothing else is in the line. -/
structure Shows (ws : List Nat) (bar : Str) (fill : Char) (cells : List Str) (line : Str) : Prop where
  length : line.length + 3 = ((ws.map (· + 3)).sum) ∨ (ws = [] ∧ line = [])
  cell : ∀ (j : Nat) (w : Nat) (s : Str), ws[j]? = some w → cells[j]? = some s →
    ∃ n, (line.drop (colStart ws j)).take w = s ++ List.replicate n fill
  bars : ∀ j, 0 < j → j < ws.length → (line.drop (colStart ws j - 3)).take 3 = bar

/-- The width of a column: that of the longest of its texts. -/
def IsWidth (w : Nat) (texts : List Str) : Prop := (∀ s ∈ texts, s.length ≤ w) ∧ ∃ s ∈ texts, s.length = w

end Table
end Coral
