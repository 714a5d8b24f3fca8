/-!
# Model of the ASCII85 output of bitmaps (`pyx/bitmap.py:43-83,217-251`)

A stream is the list of byte values written. Bytes are natural numbers.
-/

namespace PyX.Ascii85

/-- The five base-85 digits of one group as computed in `pyx/bitmap.py:69-72` (and again in lines 79-82):
the first step uses `256*256*l[0]` instead of `256*256*256*l[0]`; the rest is added in the second step. -/
def digits (l0 l1 l2 l3 : Nat) : Nat × Nat × Nat × Nat × Nat :=
  let v := 256*256*l0 + 256*256*l1 + 256*l2 + l3
  let l3' := v / 85
  let c5 := v % 85
  let w := 256*256*3*l0 + l3'
  let l2' := w / 85
  let c4 := w % 85
  let l1' := l2' / 85
  let c3 := l2' % 85
  let c1 := l1' / 85
  let c2 := l1' % 85
  (c1, c2, c3, c4, c5)

/-- The loop of `ascii85stream` (`pyx/bitmap.py:55-83`). `i` is the index of the next byte; the model takes
the bytes of a group at once where the code stores them in `l[i%4]` one after the other. `if l:` (line 64) is always
true because `l` is a list of length 4, so "z" is never written. -/
def stream (i : Nat) : List Nat → List Nat
  | a :: b :: c :: d :: rest =>
    let j := i + 3
    let nl := if j % 60 = 3 ∧ j ≠ 3 then [10] else []
    let (c1, c2, c3, c4, c5) := digits a b c d
    nl ++ [c1 + 33, c2 + 33, c3 + 33, c4 + 33, c5 + 33] ++ stream (i + 4) rest
  | [] => []
  | [a] => tail [a] (digits a 0 0 0)
  | [a, b] => tail [a, b] (digits a b 0 0)
  | [a, b, c] => tail [a, b, c] (digits a b c 0)
where
  /-- `pyx/bitmap.py:83`: the first `(i%4)+2` of four characters, i.e. one more than the bytes left. -/
  tail (left : List Nat) (g : Nat × Nat × Nat × Nat × Nat) : List Nat :=
    ([g.1 + 33, g.2.1 + 33, g.2.2.1 + 33, g.2.2.2.1 + 33]).take (left.length + 1)

/-- `ascii85stream(file, data)`. -/
def ascii85stream (data : List Nat) : List Nat := stream 0 data

/-- `ascii85lines` (`pyx/bitmap.py:43-46`). The division is Python's true division: the result is the
fraction `num / 60`. Only the numerator is kept. -/
def linesNum60 (datalen : Nat) : Nat := if datalen < 4 then 60 else datalen + 56

/-- What `"%i" % ascii85lines(n)` prints (truncation), `pyx/bitmap.py:228-229`. -/
def announcedSingle (datalen : Nat) : Nat := linesNum60 datalen / 60

/-- What the chunked branch announces (`pyx/bitmap.py:234-238`): the fractions are added up before the truncation
by `%i`. -/
def announcedChunked (datalen maxstrlen : Nat) : Nat :=
  let tailpos := datalen - datalen % maxstrlen
  ((tailpos / maxstrlen) * linesNum60 maxstrlen + linesNum60 (datalen - tailpos)) / 60

/-- Data section for a single string (`pyx/bitmap.py:229-231`), between `%%BeginData` and `%%EndData`. -/
def outputSingle (data : List Nat) : List Nat :=
  [60, 126] ++ ascii85stream data ++ [126, 62, 10]

/-- `data[i: i+maxstrlen]` for `i` in `range(0, tailpos, maxstrlen)` and the tail (`pyx/bitmap.py:240-247`). -/
def chunks (maxstrlen : Nat) : (n : Nat) → List Nat → List Nat
  | 0, data =>
    if data = [] then [] else [60, 126] ++ ascii85stream data ++ [126, 62]
  | n + 1, data =>
    [60, 126] ++ ascii85stream (data.take maxstrlen) ++ [126, 62, 10]
      ++ chunks maxstrlen n (data.drop maxstrlen)

/-- Data section for several strings (`pyx/bitmap.py:239-248`). -/
def outputChunked (maxstrlen : Nat) (data : List Nat) : List Nat :=
  [91, 32] ++ chunks maxstrlen (data.length / maxstrlen) data ++ [93, 10]

end PyX.Ascii85
