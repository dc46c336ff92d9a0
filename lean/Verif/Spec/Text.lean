import Verif.Model.Token

/-!
# Specification: positions of a text

Independent of the tokenizer: positions are obtained by counting.
-/

namespace FM.Spec

/-- Number of UTF-8 bytes of a text. -/
def utf8Len (t : Text) : Nat := (t.map Char.utf8Size).sum

/-- The position just after the text `before`, counted from the beginning of the file: bytes are UTF-8
bytes, lines are newlines (from 1), characters are characters since the last newline (from 1). -/
def position (before : Text) : Position where
  bytes := utf8Len before
  line := 1 + before.count '\n'
  character := 1 + (before.reverse.takeWhile (· ≠ '\n')).length

/-- The end position documented for a token with text `w` after the text `before`: the position after
the token, except that a token ending in a newline ends *at* that newline (same line, the newline not
counted as a character) while its byte offset includes it. -/
def endPosition (before w : Text) : Position :=
  if w.getLast? = some '\n' then
    { position (before ++ w.dropLast) with bytes := utf8Len (before ++ w) }
  else position (before ++ w)

/-- The words of the language: letters, digits and underscores. -/
def isWordChar (ch : Char) : Bool :=
  ('a' ≤ ch && ch ≤ 'z') || ('A' ≤ ch && ch ≤ 'Z') || ch == '_' || ('0' ≤ ch && ch ≤ '9')

/-- A word: nonempty, of word characters, not starting with a digit. -/
def IsWord : Text → Prop
  | [] => False
  | ch :: w => isWordChar ch ∧ ¬ ('0' ≤ ch ∧ ch ≤ '9') ∧ ∀ x ∈ w, isWordChar x

/-- The closing bracket of level `n`: `]`, `n` times `=`, `]`. -/
def closeBracket (n : Nat) : Text := ']' :: (List.replicate n '=' ++ [']'])

end FM.Spec
