import Verif.Base

/-! # Model of the text file iteration (textfile.c)

The file is the list of its bytes. Of the caller's buffer the model keeps the bytes between its start and `current`
(`held`) and those just read; the rest is never looked at. A callback is given by the string it receives. A read that
gives fewer bytes than wanted is the end of the file (no read errors). -/

namespace Verif.Text

/-- `\r` or `\n`. -/
def isNl (c : UInt8) : Bool := c == 13 || c == 10

/-- The string at an address: the bytes before the first zero. -/
def cstr (l : CStr) : CStr := l.takeWhile (· != 0)

/-- `returnNextLine`, textfile.c:27-52, on the bytes from `buffer` to `end`: the string passed to the callback, if it is
called, and the bytes from the returned pointer to `end`. -/
def nextLine (buf : CStr) : Option CStr × CStr :=
  match buf.dropWhile (fun c => !isNl c) with
  | [] => (none, [])
  | _ :: rest => (some (cstr (buf.takeWhile fun c => !isNl c)), rest.dropWhile isNl)

/-- `limit < 0 || counter < limit`. -/
def within (limit : Int) (counter : Nat) : Bool := limit < 0 || (counter : Int) < limit

/-- The last loop, textfile.c:95-100; every round consumes something. -/
def final (limit : Int) : Nat → Nat → CStr → List CStr
  | 0, _, _ => []
  | fuel + 1, counter, buf =>
    if buf ≠ [] ∧ within limit counter then
      let (line, rest) := nextLine buf
      line.toList ++ final limit fuel (counter + 1) rest
    else []

/-- textfile.c:79-100, with the bytes `held` before `current` and the bytes `read` from there: `*(end - 1)` is before the
buffer if there are none. The loop is entered if `current < end`, that is if there were bytes read or a line end was
appended. -/
def finish (limit : Int) (counter : Nat) (held read : CStr) : UB (List CStr) :=
  if within limit counter then
    match (held ++ read).getLast? with
    | none => none
    | some c =>
      if isNl c then
        some (if read ≠ [] then final limit (held ++ read).length counter (held ++ read) else [])
      else some (final limit ((held ++ read).length + 1) counter (held ++ read ++ [10]))
  else some []

/-- The first loop, textfile.c:66-78. Out of fuel it is `none`, like an endless loop. -/
def loop (length : Nat) (limit : Int) : Nat → Nat → CStr → CStr → UB (List CStr)
  | 0, _, _, _ => none
  | fuel + 1, counter, held, file =>
    if within limit counter then
      let want := length - held.length
      let read := file.take want
      if read.length = want then
        let (line, rest) := nextLine (held ++ read)
        (loop length limit fuel (counter + 1) rest (file.drop want)).map (line.toList ++ ·)
      else finish limit counter held read
    else some []

/-- `fiftyoneDegreesTextFileIterateWithLimit`, textfile.c:54-102, for a file that can be opened: the callbacks. -/
def iterate (content : CStr) (length : Nat) (limit : Int) : UB (List CStr) :=
  loop length limit (content.length + 1) 0 [] content

end Verif.Text
