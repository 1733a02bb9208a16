import Verif.Base

/-! # Model of the status messages (status.c)

`snprintf` is modelled for the formats that occur: `%s` and `%i` with one argument. `Malloc` either succeeds or gives
NULL, as the caller's environment says. Strings contain no zero bytes; the terminator is written explicitly. -/

namespace Verif.Status

/-- The table `messages`, status.c:32-125, with the values of the enumeration, status.h:77-141. -/
def messages : List (Nat × CStr) := [
  /- SUCCESS -/ (0, c!"The operation was successful."),
  /- INSUFFICIENT_MEMORY -/ (1, c!"Insufficient memory allocated for the operation."),
  /- CORRUPT_DATA -/ (2, c!"The data was not in the correct format. Check the data file '%s' is uncompressed."),
  /- INCORRECT_VERSION -/ (3, c!"The data (file: '%s') is an unsupported version. Check you have the latest data and API."),
  /- FILE_NOT_FOUND -/ (4, c!"The data file '%s' could not be found. Check the file path and that the program has sufficient read permissions."),
  /- FILE_FAILURE -/ (6, c!"An unknown error occurred accessing the file '%s'. Check the file path and that the program has sufficient read permissions."),
  /- NULL_POINTER -/ (9, c!"Null pointer to the existing dataset or memory location."),
  /- POINTER_OUT_OF_BOUNDS -/ (8, c!"Allocated continuous memory containing 51Degrees data file appears to be smaller than expected. Most likely because the data file was not fully loaded into the allocated memory."),
  /- TOO_MANY_OPEN_FILES -/ (10, c!"Too many file handles have been created during initialisation. Original data file path: '%s'."),
  /- REQ_PROP_NOT_PRESENT -/ (11, c!"None of the properties requested could be found in the data file ('%s'), so no properties can be initialised. To initialise all available properties, set the field to null."),
  /- PROFILE_EMPTY -/ (12, c!"The profile id related to an empty profile. As this just represents an empty profile, there is no profile which can be returned."),
  /- COLLECTION_FAILURE -/ (13, c!"There was an error getting an item from a collection within the data set (file: '%s'). This is likely to be caused by too many concurrent operations. Increase the concurrency option in the collection configuration to allow more threads to access the collection simultaneously."),
  /- FILE_COPY_ERROR -/ (14, c!"There was an error copying the source file ('%s') to the destination. Verify sufficient space is available at the destination."),
  /- FILE_EXISTS_ERROR -/ (15, c!"The file or directory already exists so could not be created."),
  /- FILE_WRITE_ERROR -/ (16, c!"Could not create some file with write permissions. Original data file path: '%s'."),
  /- FILE_READ_ERROR -/ (17, c!"Could not read the file."),
  /- FILE_PERMISSION_DENIED -/ (18, c!"Permission denied when opening some file. Original data file path: '%s'."),
  /- FILE_PATH_TOO_LONG -/ (19, c!"The file path to the data file '%s' is longer than the memory available to store it. Use a shorter data file path."),
  /- FILE_END_OF_DOCUMENT -/ (20, c!"End of a Yaml document read."),
  /- FILE_END_OF_DOCUMENTS -/ (21, c!"End of Yaml documents read."),
  /- FILE_END_OF_FILE -/ (22, c!"End of file."),
  /- ENCODING_ERROR -/ (23, c!"There was an error encoding characters of the string. Ensure all characters are valid. File: '%s'."),
  /- INVALID_COLLECTION_CONFIG -/ (24, c!"The configuration provided could not be used to create a valid collection. If a cached collection is included in the configuration this maybe caused by insufficient capacity for the concurrency."),
  /- INVALID_CONFIG -/ (25, c!"The configuration provided was not valid, and has caused a failure while building the resource it configures."),
  /- INSUFFICIENT_HANDLES -/ (26, c!"Insufficient handles available in the pool. Verify the pool has sufficient handles to support the maximum number of concurrent threads. This can be set when creating the resource containg the pool. Another way to avoid this is by using an in-memory configuration, which avoids using file handles completely, and removes any limit on concurrency. For info see https://51degrees.com/documentation/4.4/_device_detection__features__concurrent_processing.html"),
  /- COLLECTION_INDEX_OUT_OF_RANGE -/ (27, c!"Index used to retrieve an item from a collection was out of range."),
  /- COLLECTION_OFFSET_OUT_OF_RANGE -/ (28, c!"Offset used to retrieve an item from a collection was out of range."),
  /- COLLECTION_FILE_SEEK_FAIL -/ (29, c!"A seek operation on a file ('%s') failed."),
  /- COLLECTION_FILE_READ_FAIL -/ (30, c!"A read operation on a file ('%s') failed."),
  /- INCORRECT_IP_ADDRESS_FORMAT -/ (31, c!"The input IP address format is incorrect. Verify the input IP address string has correct format. If passing a byte array, verify the associated input data is also consistent."),
  /- TEMP_FILE_ERROR -/ (32, c!"Error occurs during the creation of a temporary file.")]

/-- `defaultMessage`, status.c:127. -/
def defaultMessage : CStr := c!"Status code %i does not have any message text."

/-- An argument of `snprintf`. -/
inductive Arg where
  | str (s : CStr)
  | int (i : Int)

/-- The decimal digits of a number, for `%i`. -/
def digits (n : Nat) : CStr := (Nat.toDigits 10 n).map fun c => UInt8.ofNat c.toNat

/-- The text of `%i`. -/
def decimal : Int → CStr
  | .ofNat n => digits n
  | .negSucc n => 45 :: digits (n + 1)

/-- The text `snprintf` makes of a format and its one argument: a second conversion, another conversion or one that
does not fit the argument is undefined. -/
def expand : CStr → Option Arg → UB CStr
  | [], _ => some []
  | 37 :: 115 :: rest, some (.str s) => (expand rest none).map (s ++ ·)
  | 37 :: 105 :: rest, some (.int i) => (expand rest none).map (decimal i ++ ·)
  | 37 :: _, _ => none
  | c :: rest, a => (expand rest a).map (c :: ·)

/-- Allocated memory: its size and the bytes written from its start. -/
structure Block where
  size : Nat
  bytes : List UInt8
deriving DecidableEq, Repr

/-- `snprintf` into a block: as much of the text as fits, and the terminator. -/
def snprintf (size : Nat) (format : CStr) (a : Arg) : UB Block := do
  let text ← expand format (some a)
  some ⟨size, if size = 0 then [] else text.take (size - 1) ++ [0]⟩

/-- Whether `strstr(message, "%s")` finds something. -/
def hasFile : CStr → Bool
  | [] => false
  | [_] => false
  | a :: b :: rest => (a == 37 && b == 115) || hasFile (b :: rest)

/-- The first entry of the table with the status, status.c:140-142. -/
def find (status : Nat) : Option CStr := (messages.find? (·.1 == status)).map (·.2)

/-- The default message, status.c:156-160; `Snprintf` with a NULL buffer is undefined. -/
def default (alloc : Bool) (status : Nat) : UB Block :=
  if alloc then snprintf (defaultMessage.length + 1 + 5) defaultMessage (.int (if status < 2147483648 then status else status - 4294967296))
  else none

/-- `fiftyoneDegreesStatusGetMessage`, status.c:129-162. `alloc1` and `alloc2` are whether the two allocations succeed;
the status is a 32 bit unsigned enumeration. -/
def getMessage (alloc1 alloc2 : Bool) (status : Nat) (fileName : Option CStr) : UB Block :=
  let fileName := fileName.getD c!"null"
  match find status with
  | some message =>
    let size := if hasFile message then message.length + fileName.length - 1 else message.length + 1
    if alloc1 then snprintf size message (.str fileName) else default alloc2 status
  | none => default alloc2 status

end Verif.Status
