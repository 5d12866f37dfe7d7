import Verif.Go.Bytes
/-
dsio/replacecr/replace_cr.go: a reader that inserts a line feed after a lone carriage return.
-/
set_option autoImplicit false
namespace Verif.ReplaceCr

/-- replace_cr.go:52-60: `Peek(1)` on what is left of the source: is the next byte something other than
a line feed, or is the source at its end?  A source that fails with another error counts as not lone. -/
def lone (atEOF : Bool) : Bytes → Bool
  | [] => atEOF
  | d :: _ => d != 10

/-- replace_cr.go:38-65 `Read` with room for `k` bytes: the bytes put into the buffer, whether the source
ended, and what is left of the source.  The source is its bytes and whether it ends with end-of-file
(`bufio` hides how they arrive). -/
def read (atEOF : Bool) : Nat → Bytes → Bytes × Bool × Bytes
  | 0, s => ([], false, s)
  | _ + 1, [] => ([], true, [])
  | k + 1, c :: s =>
    if c = 13 ∧ 0 < k ∧ lone atEOF s = true then
      (13 :: 10 :: (read atEOF (k - 1) s).1, (read atEOF (k - 1) s).2)
    else (c :: (read atEOF k s).1, (read atEOF k s).2)

/-- successive calls with buffers of the given sizes: everything delivered, and what is left -/
def reads (atEOF : Bool) : List Nat → Bytes → Bytes × Bytes
  | [], s => ([], s)
  | k :: ks, s => ((read atEOF k s).1 ++ (reads atEOF ks (read atEOF k s).2.2).1, (reads atEOF ks (read atEOF k s).2.2).2)

end Verif.ReplaceCr
