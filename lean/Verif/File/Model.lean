import Verif.Base

/-! # Model of the file operations (file.c)

The file system is modelled by what the calls of the C library give for each path. Only one thread and one process use
it here; see `File/Race.lean` for several. Only the POSIX variants are modelled. -/

namespace Verif.File

/-- The status codes (status.h) the functions give. -/
inductive Status where
  | success
  | notSet
  | insufficientMemory
  | encodingError
  | tempFileError
  | fileNotFound
  | fileWriteError
  | fileCopyError
  | filePathTooLong
  | fileFailure
  | invalidConfig
deriving DecidableEq, Repr

/-- A file system. -/
structure FS where
  /-- The contents of the file with that path, `none` if it cannot be opened for reading. -/
  file : CStr → Option CStr
  /-- Whether opening it for writing works. -/
  canWrite : CStr → Bool
  /-- How many bytes can be written before `fwrite` fails; `none` if it does not. All that it takes reaches the file; see
  `File/Buffer.lean` for streams with a buffer. -/
  room : CStr → Option Nat
  /-- How many bytes can be read before `fread` fails; `none` if it does not. -/
  readLimit : CStr → Option Nat
  /-- Whether `fseek` works. -/
  canSeek : CStr → Bool
  /-- Whether `remove` works. -/
  canDelete : CStr → Bool

/-- One file changed. -/
def FS.set (fs : FS) (p : CStr) (v : Option CStr) : FS := { fs with file := fun q => if q = p then v else fs.file q }

/-- The part of some bytes allowed by a limit. -/
def limited (limit : Option Nat) (b : CStr) : CStr :=
  match limit with
  | none => b
  | some n => b.take n

/-! ## Copying and deleting -/

/-- The loop of `fileCopy`, file.c:154-161: `source` is what is still to be read, `written` what has been written. The
result says whether the copy succeeded. `fuel` bounds the rounds. -/
def copyLoop (room : Option Nat) : Nat → CStr → CStr → Bool × CStr
  | 0, _, written => (true, written)
  | fuel + 1, source, written =>
    let buffer := source.take 8192
    if buffer.length > 0 then
      let w := limited (room.map (· - written.length)) buffer
      if w.length ≠ buffer.length then (false, written ++ w)
      else copyLoop room fuel (source.drop 8192) (written ++ buffer)
    else (true, written)

/-- `fileCopy`, file.c:149-164, of contents `source`. -/
def copyBytes (canSeek : Bool) (room : Option Nat) (source : CStr) : Bool × CStr :=
  if canSeek then copyLoop room (source.length + 1) source [] else (true, [])

/-- `fiftyoneDegreesFileDelete`, file.c:1005-1017; the status is not used by the callers modelled. -/
def FS.delete (fs : FS) (p : CStr) : FS × Bool :=
  if fs.canDelete p = true ∧ fs.file p ≠ none then (fs.set p none, true) else (fs, false)

/-- `fiftyoneDegreesFileCopy`, file.c:1019-1042, with `fileOpen`, file.c:99-147. Opening the destination for writing
makes it empty. -/
def FS.copy (fs : FS) (source destination : CStr) : FS × Status :=
  match fs.file source with
  | none => (fs, .fileNotFound)
  | some _ =>
    if fs.canWrite destination then
      let fs := fs.set destination (some [])
      let content := limited (fs.readLimit source) ((fs.file source).getD [])
      let r := copyBytes (fs.canSeek source) (fs.room destination) content
      let fs := fs.set destination (some r.2)
      if r.1 then (fs, .success) else ((fs.delete destination).1, .fileCopyError)
    else (fs, .fileWriteError)

/-! ## Names -/

/-- `/` or `\`. -/
def isSlash (c : UInt8) : Bool := c = 47 || c = 92

/-- `getNameFromPath`, file.c:315-325: `last` is what the pointer `last` points at. -/
def nameLoop (last : CStr) : CStr → CStr
  | [] => last
  | c :: t => nameLoop (if isSlash c then t else last) t

/-- `getNameFromPath`, file.c:315-325. -/
def getNameFromPath (path : CStr) : CStr := nameLoop path path

/-- The loop of `fiftyoneDegreesFileGetFileName`, file.c:1100-1103, at position `i`: the result is the position `c`. -/
def fileNameLoop (path : CStr) : Nat → Nat
  | 0 => 0
  | i + 1 => if path[i + 1]?.any isSlash then i + 1 else fileNameLoop path i

/-- `fiftyoneDegreesFileGetFileName`, file.c:1098-1104. For an empty path the result points behind the terminator. -/
def getFileName (path : CStr) : UB CStr :=
  let c := fileNameLoop path path.length
  if c + 1 ≤ path.length then some (path.drop (c + 1)) else none

/-- `strrchr`: the position of the last occurrence. -/
def strrchr (c : UInt8) (s : CStr) : Option Nat :=
  match s with
  | [] => none
  | d :: t =>
    match strrchr c t with
    | some i => some (i + 1)
    | none => if d = c then some 0 else none

/-- `fiftyoneDegreesFileGetBaseName`, file.c:773-782; `none` is NULL. -/
def getBaseName (path : CStr) : Option CStr :=
  match strrchr 47 path with
  | some _ => none
  | none =>
    match strrchr 92 path with
    | some i => if (path.drop i).length ≠ 1 then some (path.drop (i + 1)) else none
    | none => none

/-- A `size_t`. -/
def size (n : Int) : Nat := (n % 2 ^ 64).toNat

/-- `getBasenameWithoutExtension`, file.c:622-643: the status and what is written to the destination. The pointers are
positions in the path. A write outside of the destination is undefined. -/
def getBasename (path : CStr) (length : Nat) : UB (Status × CStr) :=
  let pos := path.length - (getNameFromPath path).length
  let «end» : Nat := match strrchr 46 path with
    | some dot => size ((dot : Int) - pos)
    | none => (getNameFromPath path).length
  if (size («end» + 1)) > length then some (.insufficientMemory, [])
  else if «end» < length then some (.success, (getNameFromPath path).take «end»)
  else none

/-! ## Temporary files -/

/-- `FIFTYONE_DEGREES_FILE_MAX_PATH`, file.h:213. -/
def maxPath : Nat := 4096

/-- `TEMP_UNIQUE_STRING_LENGTH`, file.h:200. -/
def uniqueLength : Nat := 20

/-- `Snprintf` of a text to `cap` bytes of memory when it is told there are `length`: what is written, without the
terminator. -/
def snprintf (text : CStr) (cap length : Nat) : UB CStr :=
  if length = 0 then (some [])
  else if min text.length (length - 1) + 1 ≤ cap then some (text.take (length - 1)) else none

/-- The loop of `fiftyoneDegreesFileAddTempFileName`, file.c:743-769. `prefix` is what is in the destination before
`nameStart`, `dest` all of what is in it, `cap` the memory after `nameStart`. `random` are the strings `getRandomString`
(file.c:204-226) gives one after the other; when there are no more it fails. The result has the contents of the destination
and the strings not used. -/
def tempNameLoop (fs : FS) (pid base «prefix» : CStr) (cap length : Nat) :
    CStr → List CStr → UB (Status × CStr × List CStr)
  | dest, [] => some (.tempFileError, dest, [])
  | _, r :: rest =>
    let text := base ++ c!"-" ++ pid ++ c!"-" ++ r
    match snprintf text cap length with
    | none => none
    | some name =>
      if text.length > length then
        -- memset, file.c:767
        if length ≤ cap then some (.insufficientMemory, «prefix», rest) else none
      else if (fs.file («prefix» ++ name)).isSome then tempNameLoop fs pid base «prefix» cap length («prefix» ++ name) rest
      else some (.success, «prefix» ++ name, rest)

/-- `fiftyoneDegreesFileAddTempFileName`, file.c:728-771. The destination has nothing after `prefix` at first. -/
def addTempFileName (fs : FS) (pid master «prefix» : CStr) (cap length : Nat) (random : List CStr) :
    UB (Status × CStr × List CStr) :=
  match getBasename master maxPath with
  | none => none
  | some (.success, base) => tempNameLoop fs pid base «prefix» cap length «prefix» random
  | some (st, _) => some (st, «prefix», random)

/-- `createTempFileWithoutPaths`, file.c:784-800. -/
def createTempFileWithoutPaths (fs : FS) (pid master : CStr) (length : Nat) (random : List CStr) :
    UB (FS × Status × CStr) :=
  match addTempFileName fs pid (getNameFromPath master) [] length length random with
  | none => none
  | some (.success, dest, _) =>
    match fs.copy master dest with
    | (fs, .success) => some (fs, .success, dest)
    | (fs, st) => some (fs, st, [])
  | some (st, dest, _) => some (fs, st, dest)

/-- A directory with a slash at the end, file.c:815-827, 890-896. -/
def withSlash (dir : CStr) : CStr :=
  match dir.getLast? with
  | none => dir
  | some c => if isSlash c then dir else dir ++ [47]

/-- One round of the loop of `createTempFileWithPaths`, file.c:812-845. When the path has been cut off, which is only
possible if it is as long as the memory, the next write is outside of the memory. -/
def tempInDir (fs : FS) (pid master dir : CStr) (length : Nat) (random : List CStr) :
    UB (FS × Status × CStr × List CStr) :=
  let text := withSlash dir
  match snprintf text length length with
  | none => none
  | some _ =>
    if text.length > length then some (fs, .insufficientMemory, [], random)
    else
      match addTempFileName fs pid (getNameFromPath master) text
        (length - text.length) (size ((length : Int) - text.length - 1)) random with
      | none => none
      | some (.success, dest, random) =>
        match fs.copy master dest with
        | (fs, .success) => some (fs, .success, dest, random)
        | (fs, st) => some (fs, st, [], random)
      | some (st, _, random) => some (fs, st, [], random)

/-- The loop of `createTempFileWithPaths`, file.c:802-848, with the status and destination so far. -/
def createTempFileWithPaths (pid master : CStr) (length : Nat) :
    List CStr → FS → Status → CStr → List CStr → UB (FS × Status × CStr)
  | [], fs, st, dest, _ => some (fs, st, dest)
  | dir :: dirs, fs, _, _, random =>
    match tempInDir fs pid master dir length random with
    | none => none
    | some (fs, st, dest, random) => createTempFileWithPaths pid master length dirs fs st dest random

/-- `fiftyoneDegreesFileNewTempFile`, file.c:850-868. -/
def newTempFile (fs : FS) (pid master : CStr) (paths : List CStr) (length : Nat) (random : List CStr) :
    UB (FS × Status × CStr) :=
  if paths = [] then createTempFileWithoutPaths fs pid master length random
  else createTempFileWithPaths pid master length paths fs .notSet [] random

/-- `getUniqueLegacyFileName`, file.c:238-247: the name is tried again while the file exists. When the random string
fails at first the destination is read uninitialised, when it fails later the name remains. -/
def legacyName (fs : FS) («prefix» : CStr) : Option CStr → List CStr → UB (CStr × List CStr)
  | none, [] => none
  | some last, [] => some (last, [])
  | _, r :: rest =>
    if (fs.file («prefix» ++ r)).isSome then legacyName fs «prefix» (some («prefix» ++ r)) rest
    else some («prefix» ++ r, rest)

/-- The loop of `fiftyoneDegreesFileCreateTempFile`, file.c:888-909. -/
def createTempLoop (master : CStr) : List CStr → FS → Status → List CStr → UB (FS × Status × Option CStr)
  | [], fs, st, _ => some (fs, st, none)
  | dir :: dirs, fs, _, random =>
    -- strcpy and the slash, file.c:890-896
    if dir.length ≥ maxPath then none
    else if (withSlash dir).length + uniqueLength < maxPath then
      match legacyName fs (withSlash dir) none random with
      | none => none
      | some (path, random) =>
        match fs.copy master path with
        | (fs, .success) => some (fs, .success, some path)
        | (fs, st) => createTempLoop master dirs fs st random
    else createTempLoop master dirs fs .filePathTooLong random

/-- `fiftyoneDegreesFileCreateTempFile`, file.c:870-913. -/
def createTempFile (fs : FS) (master : CStr) (paths : List CStr) (random : List CStr) :
    UB (FS × Status × Option CStr) :=
  if paths = [] then
    match legacyName fs [] none random with
    | none => none
    | some (path, _) =>
      match fs.copy master path with
      | (fs, .success) => some (fs, .success, some path)
      | (fs, st) => some (fs, st, none)
  else createTempLoop master paths fs .notSet random

/-! ## Existing temporary files -/

/-- The size of a file's contents as `FileGetSize` gives it, file.c:1044-1052, for files that can be positioned. -/
def FS.size (fs : FS) (p : CStr) : Int :=
  match fs.file p with
  | some c => c.length
  | none => -1

/-- The loop of `compareFiles`, file.c:282-304, at position `pos`; `a` and `b` are what is still to be read. The buffers
have 1024 bytes. `fuel` bounds the rounds. -/
def compareLoop (bytes : Int) (size : Nat) : Nat → Nat → CStr → CStr → UB Bool
  | 0, _, _, _ => some true
  | fuel + 1, pos, a, b =>
    if pos < size ∧ (bytes < 0 ∨ (pos : Int) < bytes) then
      let read := min (if bytes > 0 then bytes.toNat else 1024) (size - pos)
      if read > 1024 then none
      else if a.length < read then some false
      else if b.length < read then some false
      else if a.take read ≠ b.take read then some false
      else compareLoop bytes size fuel (pos + read) (a.drop read) (b.drop read)
    else some true

/-- `compareFiles`, file.c:257-308. -/
def compareFiles (fs : FS) (fileName other : CStr) (bytes : Int) : UB Bool :=
  let n := fs.size fileName
  if n > 0 ∧ n ≠ fs.size other then some false
  else
    match fs.file fileName, fs.file other with
    | some a, some b => compareLoop bytes a.length (a.length + 1) 0 a b
    | _, _ => some false

/-- `iteratorFileCompare`, file.c:446-457, with `fileNamesMatch`, file.c:335-339. -/
def iteratorCompare (fs : FS) (master base : CStr) (bytes : Int) (fileName : CStr) : UB Bool :=
  if base.isPrefixOf (getNameFromPath fileName) then
    match compareFiles fs master fileName bytes with
    | none => none
    | some true => some (getNameFromPath fileName ≠ getNameFromPath master)
    | some false => some false
  else some false

/-- `iterateFiles`, file.c:351-436, with the match method that ends the search, file.c:466-470: the entries of the
directory in order. -/
def findIn (fs : FS) (master base : CStr) (bytes : Int) («prefix» : CStr) : List CStr → UB (Option CStr)
  | [] => some none
  | e :: es =>
    if («prefix» ++ e).length ≥ maxPath then none
    else
      match iteratorCompare fs master base bytes («prefix» ++ e) with
      | none => none
      | some true => some (some («prefix» ++ e))
      | some false => findIn fs master base bytes «prefix» es

/-- `iterateFiles` with the strcpy at its start, file.c:356-364. `list` gives the entries of a directory. -/
def iterateFind (fs : FS) (list : CStr → List CStr) (master base : CStr) (bytes : Int) (dir : CStr) :
    UB (Option CStr) :=
  if dir.length ≥ maxPath then none else findIn fs master base bytes (withSlash dir) (list dir)

/-- The loop of `fiftyoneDegreesFileGetExistingTempFile`, file.c:714-722: `first` is `paths[0]`, and `n` rounds. -/
def existingLoop (fs : FS) (list : CStr → List CStr) (master base : CStr) (bytes : Int) (first : CStr) :
    Nat → UB (Option CStr)
  | 0 => some none
  | n + 1 =>
    match iterateFind fs list master base bytes first with
    | none => none
    | some (some p) => some (some p)
    | some none => existingLoop fs list master base bytes first n

/-- `fiftyoneDegreesFileGetExistingTempFile`, file.c:687-725. -/
def getExistingTempFile (fs : FS) (list : CStr → List CStr) (master : CStr) (paths : List CStr) (bytes : Int) :
    UB (Option CStr) :=
  match getBasename master maxPath with
  | none => none
  | some (.success, base) =>
    match paths with
    | [] => iterateFind fs list master base bytes []
    | first :: _ => existingLoop fs list master base bytes first paths.length
  | some _ => some none

/-- `iterateFiles` with the match method that deletes, file.c:554-572, on the entries of a directory: the file system and
the counter afterwards. `inUse` is `isFileInUse`, file.c:488-540. -/
def deleteIn (inUse : CStr → Bool) (master base : CStr) (bytes : Int) («prefix» : CStr) :
    List CStr → FS → Nat → UB (FS × Nat)
  | [], fs, n => some (fs, n)
  | e :: es, fs, n =>
    if («prefix» ++ e).length ≥ maxPath then none
    else
      match iteratorCompare fs master base bytes («prefix» ++ e) with
      | none => none
      | some true =>
        if inUse («prefix» ++ e) then deleteIn inUse master base bytes «prefix» es fs n
        else
          match fs.delete («prefix» ++ e) with
          | (fs, true) => deleteIn inUse master base bytes «prefix» es fs ((n + 1) % 256)
          | (fs, false) => deleteIn inUse master base bytes «prefix» es fs n
      | some false => deleteIn inUse master base bytes «prefix» es fs n

/-- The same with the strcpy at the start of `iterateFiles`. -/
def iterateDelete (inUse : CStr → Bool) (list : CStr → List CStr) (master base : CStr) (bytes : Int) (dir : CStr)
    (fs : FS) (n : Nat) : UB (FS × Nat) :=
  if dir.length ≥ maxPath then none else deleteIn inUse master base bytes (withSlash dir) (list dir) fs n

/-- The loop of `fiftyoneDegreesFileDeleteUnusedTempFiles`, file.c:676-682. The entries of the directory are taken to be
listed again, with those already deleted. -/
def deleteLoop (inUse : CStr → Bool) (list : CStr → List CStr) (master base : CStr) (bytes : Int) (first : CStr) :
    Nat → FS → Nat → UB (FS × Nat)
  | 0, fs, n => some (fs, n)
  | k + 1, fs, n =>
    match iterateDelete inUse list master base bytes first fs n with
    | none => none
    | some (fs, n) => deleteLoop inUse list master base bytes first k fs n

/-- `fiftyoneDegreesFileDeleteUnusedTempFiles`, file.c:645-685. -/
def deleteUnused (inUse : CStr → Bool) (fs : FS) (list : CStr → List CStr) (master : CStr) (paths : List CStr)
    (bytes : Int) : UB (FS × Nat) :=
  match getBasename master maxPath with
  | none => none
  | some (.success, base) =>
    match paths with
    | [] => iterateDelete inUse list master base bytes [] fs 0
    | first :: _ => deleteLoop inUse list master base bytes first paths.length fs 0
  | some _ => some (fs, 0)

/-! ## Searching upwards -/

/-- The loop of `fiftyoneDegreesFileGetPath`, file.c:926-955, at position `i`. What is written to `testPath` from `i` on
does not matter at lower positions. `size` is the size of the destination; the result has what is written there. -/
def getPathLoop (fs : FS) (cwd folder name : CStr) (size : Nat) : Nat → Status × CStr
  | 0 => (.fileNotFound, [])
  | i + 1 =>
    if i + 1 = cwd.length ∨ cwd[i + 1]?.any isSlash then
      let text := c!"/" ++ folder ++ c!"/" ++ name
      if text.length ≥ maxPath - (i + 1) then (.insufficientMemory, [])
      else
        let path := cwd.take (i + 1) ++ text
        if (fs.file path).isSome then
          if path.length ≥ size then (.insufficientMemory, path.take (size - 1)) else (.success, path)
        else getPathLoop fs cwd folder name size i
    else getPathLoop fs cwd folder name size i

/-- `fiftyoneDegreesFileGetPath`, file.c:915-959; `cwd` is `none` when the current directory cannot be had. -/
def getPath (fs : FS) (cwd : Option CStr) (folder name : CStr) (size : Nat) : Status × CStr :=
  match cwd with
  | none => (.fileNotFound, [])
  | some cwd => getPathLoop fs cwd folder name size cwd.length

end Verif.File
