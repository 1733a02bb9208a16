import Verif.File.Existing

/-! # Model of the working file of a data set (dataset.c) and of reading and writing whole files (file.c) -/

namespace Verif.Work

open Verif.File

/-! ## Data set -/

/-- The members of `fiftyoneDegreesConfigBase` (config.h) that matter for the working file. -/
structure Config where
  useTempFile : Bool
  reuseTempFile : Bool
  tempDirs : List CStr
deriving DecidableEq, Repr

/-- `fiftyoneDegreesDataSetBase` (dataset.h:96-128) as far as files go: the configuration (`none` is NULL), `fileName` and
`masterFileName`, and the bytes in memory, if any. -/
structure DataSet where
  config : Option Config
  fileName : CStr
  masterFileName : CStr
  memory : Option CStr
deriving DecidableEq, Repr

/-- `fiftyoneDegreesDataSetReset`, dataset.c:103-114. -/
def reset : DataSet := ⟨none, [], [], none⟩

/-- `initWithTempFile`, dataset.c:51-69. `list` gives the entries of a directory, `pid` and `random` the parts of a new name,
see `Verif.File`. The destination of a new file starts empty. -/
def initWithTempFile (fs : FS) (list : CStr → List CStr) (pid : CStr) (random : List CStr) (d : DataSet) (c : Config)
    (bytes : Int) : UB (FS × Status × DataSet) :=
  let fresh : UB (FS × Status × DataSet) :=
    (newTempFile fs pid d.masterFileName c.tempDirs maxPath random).map fun (fs, st, name) => (fs, st, { d with fileName := name })
  if c.reuseTempFile = false then fresh
  else
    match getExistingTempFile fs list d.masterFileName c.tempDirs bytes with
    | none => none
    | some none => fresh
    | some (some p) => some (fs, .success, { d with fileName := p })

/-- `fiftyoneDegreesDataSetInitFromFile`, dataset.c:183-235. The checks after the copies cannot fail. -/
def initFromFile (fs : FS) (list : CStr → List CStr) (pid : CStr) (random : List CStr) (d : DataSet) (name : CStr)
    (bytes : Int) : UB (FS × Status × DataSet) :=
  if name.length + 1 > maxPath then some (fs, .filePathTooLong, d)
  else
    let d := { d with masterFileName := name }
    match d.config with
    | none => none
    | some c =>
      if c.useTempFile then initWithTempFile fs list pid random d c bytes
      else some (fs, .success, { d with fileName := name })

/-- `fiftyoneDegreesDataSetFree`, dataset.c:71-101, as far as files go. -/
def DataSet.free (d : DataSet) (fs : FS) : UB (FS × DataSet) :=
  match d.config with
  | none => none
  | some c =>
    let d := { d with memory := none }
    if c.useTempFile then some ((fs.delete d.fileName).1, d) else some (fs, d)

/-! ## Whole files -/

/-- `fiftyoneDegreesFileWrite`, file.c:580-593. -/
def write (fs : FS) (p data : CStr) : FS × Status :=
  if fs.canWrite p then
    let w := limited (fs.room p) data
    (fs.set p (some w), if data ≠ [] ∧ w.length = data.length then .success else .fileFailure)
  else (fs, .fileWriteError)

/-- `fiftyoneDegreesFileReadToByteArray`, file.c:1054-1091: the status, the bytes in memory, and what memory tracking counts
as allocated, with `tracked` before. `malloc` says whether the allocation succeeds; with a length of -1 it never does. A read
of an empty item gives 0. After a failed read, `free` and not `Free` is called, which tracking does not see. -/
def readToByteArray (fs : FS) (p : CStr) (malloc : Bool) (tracked : Nat) : Status × Option CStr × Nat :=
  match fs.file p with
  | none => (.fileNotFound, none, tracked)
  | some c =>
    if malloc = true ∧ fs.canSeek p = true then
      if c ≠ [] ∧ (limited (fs.readLimit p) c).length = c.length then (.success, some c, tracked + c.length)
      else (.fileFailure, none, tracked + c.length)
    else (.insufficientMemory, none, tracked)

/-- `fiftyoneDegreesDataSetInitInMemory`, dataset.c:237-250. -/
def initInMemory (fs : FS) (d : DataSet) (malloc : Bool) (tracked : Nat) : Status × DataSet × Nat :=
  match readToByteArray fs d.fileName malloc tracked with
  | (.success, m, t) => (.success, { d with memory := m }, t)
  | (st, _, t) => (st, d, t)

/-- The files opened by the loop of `PoolInit` with `createFileHandle`, file.c:61-71: up to the first that fails. `limit` is
how many can be opened. -/
def openFiles (concurrency limit : Nat) : Nat := min concurrency limit

/-- `fiftyoneDegreesFilePoolInit`, file.c:961-989, with `setLength`, file.c:88-97, for a concurrency below 65535 (see
`C55_wraps_violated`): the status, how many files are open, and the length. -/
def poolInit (fs : FS) (p : CStr) (concurrency limit : Nat) (malloc : Bool) : Status × Nat × Int :=
  if concurrency = 0 then (.invalidConfig, 0, 0)
  else if malloc then
    match fs.file p with
    | none => (.fileNotFound, 0, 0)
    | some c =>
      if openFiles concurrency limit < concurrency then (.fileNotFound, openFiles concurrency limit, 0)
      else
        let length : Int := if fs.canSeek p then c.length else -1
        if length = 0 then (.fileFailure, concurrency, 0) else (.success, concurrency, length)
  else (.insufficientMemory, 0, 0)

end Verif.Work
