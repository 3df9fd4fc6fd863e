import Verif.Multisplit.Main
/-! # The built-in separator tables of str (big/text.py:122-206, 337-358) -/
namespace Big.MS
open Spec

/-- str_whitespace, which is also `whitespace` (text.py:129-170). -/
def strWhitespace : List (List Char) :=
  [['\t'], ['\n'], ['\x0b'], ['\x0c'], ['\r'], ['\r', '\n'], ['\x1c'], ['\x1d'], ['\x1e'], ['\x1f'],
   [' '], ['\u0085'], ['\u00a0'], ['\u1680'], ['\u2000'], ['\u2001'], ['\u2002'], ['\u2003'],
   ['\u2004'], ['\u2005'], ['\u2006'], ['\u2007'], ['\u2008'], ['\u2009'], ['\u200a'], ['\u2028'],
   ['\u2029'], ['\u202f'], ['\u205f'], ['\u3000']]

/-- `tuple(s for s in t if s != '\r\n')` (text.py:172 and others). -/
def withoutCrlf (t : List (List Char)) : List (List Char) :=
  t.filter (fun w => decide (w ≠ ['\r', '\n']))

/-- `not ('\x1c' <= s <= '\x1f')` (text.py:182); every string of the tables with a first character
in that range is one character long, so comparing first characters is comparing strings. -/
def notAsciiSep (w : List Char) : Bool :=
  !(w.head?.any (fun c => decide (28 ≤ c.toNat ∧ c.toNat ≤ 31)))

/-- unicode_whitespace (text.py:182) -/
def unicodeWhitespace : List (List Char) := strWhitespace.filter notAsciiSep

/-- ascii_whitespace (text.py:190) -/
def asciiWhitespace : List (List Char) :=
  unicodeWhitespace.filter (fun w => w.head?.any (fun c => decide (c.toNat < 128)))

/-- str_linebreaks, which is also `linebreaks` (text.py:203-223). -/
def strLinebreaks : List (List Char) :=
  [['\n'], ['\x0b'], ['\x0c'], ['\r'], ['\r', '\n'], ['\x1c'], ['\x1d'], ['\x1e'], ['\u0085'],
   ['\u2028'], ['\u2029']]

/-- unicode_linebreaks (text.py:235) -/
def unicodeLinebreaks : List (List Char) := strLinebreaks.filter notAsciiSep

/-- _reversed_builtin_separators, its str entries (text.py:337-358). -/
def strCache (seps : List (List Char)) : Option (List (List Char)) :=
  if seps = strWhitespace then some (withoutCrlf strWhitespace ++ [['\n', '\r']])
  else if seps = withoutCrlf strWhitespace then some (withoutCrlf strWhitespace)
  else if seps = unicodeWhitespace then some (withoutCrlf unicodeWhitespace ++ [['\n', '\r']])
  else if seps = withoutCrlf unicodeWhitespace then some (withoutCrlf unicodeWhitespace)
  else if seps = asciiWhitespace then some (withoutCrlf asciiWhitespace ++ [['\n', '\r']])
  else if seps = withoutCrlf asciiWhitespace then some (withoutCrlf asciiWhitespace)
  else if seps = strLinebreaks then some (withoutCrlf strLinebreaks ++ [['\n', '\r']])
  else if seps = withoutCrlf strLinebreaks then some (withoutCrlf strLinebreaks)
  else if seps = unicodeLinebreaks then some (withoutCrlf unicodeLinebreaks ++ [['\n', '\r']])
  else if seps = withoutCrlf unicodeLinebreaks then some (withoutCrlf unicodeLinebreaks)
  else none

theorem mem_iff_of_all {a b : List (List Char)} (h1 : ∀ w ∈ a, w ∈ b) (h2 : ∀ w ∈ b, w ∈ a) :
    ∀ w, w ∈ a ↔ w ∈ b := fun w => ⟨h1 w, h2 w⟩

/-- The precalculated reversed separators are the reversed separators. -/
theorem strCache_ok : CacheOK strCache := by
  intro seps r h
  unfold strCache at h
  repeat' split at h
  all_goals first
    | (simp only [Option.some.injEq] at h; subst h; subst_vars
       apply mem_iff_of_all <;> decide +kernel)
    | simp at h

end Big.MS
