/-!
# Model of `deprecated.split_quoted_strings` (big/deprecated.py:90-242)

Strings are lists of characters of any type `α` (str or bytes: `_iterate_over_bytes` gives the bytes one
at a time). `quotes` is the list of the quote characters: a quote separator longer than one character is
never equal to a character (documented restriction), and is not modelled. The generator run to its end is
the list of the pairs it yielded, and whether it ended by an exception.

The function reads `s` through a `PushbackIterator` and pushes back only characters it just read, last
one first; by C27 the iterator then yields them again before the rest of `s`. So the model reads a list,
and pushing back is going on from the earlier point of the list.
-/
namespace Big.DQ

variable {α : Type} [DecidableEq α]

/-- A yielded pair: is_quoted (for its truth value), segment. For deprecated.py:156. -/
abbrev Seg (α : Type) := Bool × List α

/-- The pairs yielded, and whether the generator ended by an exception: the `StopIteration` raised by
`c2 = next(i)` (deprecated.py:156) leaves the generator as a RuntimeError (PEP 479). -/
structure Result (α : Type) where
  segs : List (Seg α)
  raised : Bool
  deriving DecidableEq, Repr

/-- `yield` before going on. For deprecated.py:149-151, 160-162, 170-172. -/
def Result.emit (q : Bool) (text : List α) (r : Result α) : Result α := ⟨(q, text) :: r.segs, r.raised⟩

/-- `if text: yield q, empty_join(text)` before going on (deprecated.py:149-151, 160-162, 170-172,
180-182, 241-242). -/
def Result.flush (q : Bool) (text : List α) (r : Result α) : Result α :=
  if text.isEmpty then r else r.emit q text

/-- The loop (deprecated.py:139-242). `quote` is `in_quote` (None and False are both `none`), `triple` is
`in_triple_quote`, `back` is `in_backslash`, `text` is what was appended to `text`. -/
def loop (quotes : List α) (triples : Bool) (bs : α) :
    Option α → Bool → Bool → List α → List α → Result α
  -- the end: flush the remainder (241-242)
  | quote, _, _, text, [] => Result.flush quote.isSome text ⟨[], false⟩
  | none, triple, back, text, c :: rest =>
    -- 142-145
    if c ∉ quotes then loop quotes triples bs none triple back (text ++ [c]) rest
    -- 146-154
    else if !triples then (loop quotes triples bs (some c) triple back [c] rest).flush false text
    else
      match rest with
      -- c2 = next(i) (156)
      | [] => ⟨[], true⟩
      | c2 :: rest2 =>
        -- 157-165: i.push(c2)
        if c2 ≠ c then (loop quotes triples bs (some c) triple back [c] (c2 :: rest2)).flush false text
        else
          match rest2 with
          -- 166-176: c3 is None
          | [] => ((loop quotes triples bs none triple back [] []).emit true [c, c]).flush false text
          | c3 :: rest3 =>
            -- 166-176: i.push(c3)
            if c3 ≠ c then
              ((loop quotes triples bs none triple back [] (c3 :: rest3)).emit true [c, c]).flush false text
            -- 177-185
            else (loop quotes triples bs (some c) true back [c, c, c] rest3).flush false text
  | some q, triple, back, text, c :: rest =>
    -- 188-193
    if back then loop quotes triples bs (some q) triple false (text ++ [c]) rest
    -- 194-200
    else if c = bs then loop quotes triples bs (some q) triple true (text ++ [c]) rest
    -- 201-205
    else if c ≠ q then loop quotes triples bs (some q) triple back (text ++ [c]) rest
    -- 206-215
    else if !triple then (loop quotes triples bs none triple back [] rest).emit true (text ++ [c])
    else
      match rest with
      -- 219-237: c2 and c3 are None
      | [] => loop quotes triples bs (some q) triple back (text ++ [c]) []
      -- c3 is None, i.push(c2)
      | [c2] => loop quotes triples bs (some q) triple back (text ++ [c]) [c2]
      | c2 :: c3 :: rest3 =>
        -- 221-229
        if c = c2 ∧ c2 = c3 then (loop quotes triples bs none false back [] rest3).emit true (text ++ [c, c, c])
        -- i.push(c3), i.push(c2)
        else loop quotes triples bs (some q) triple back (text ++ [c]) (c2 :: c3 :: rest3)
termination_by structural _ _ _ _ s => s

/-- `split_quoted_strings(s, quotes, triple_quotes=triples, backslash=bs)` (deprecated.py:91-242). -/
def splitQuoted (quotes : List α) (triples : Bool) (bs : α) (s : List α) : Result α :=
  loop quotes triples bs none false false [] s

end Big.DQ
