/-
Where received files are stored: the paths the file system backend builds from a client id and from a name or virtual
path chosen by the sender, and what the operations of the backend do to the file system.

Source:
  /repo/citadel_user/src/misc.rs lines 79-124 (`validate_virtual_path`, `prepare_virtual_path`, `format_path`),
  /repo/citadel_user/src/directory_store.rs lines 145-190 (`setup_directory`, `append_to_path`),
  /repo/citadel_user/src/backend/file_io_backend.rs lines 355-462, 494-576 (`stream_object_to_backend`,
    `revfs_get_file_info`, `revfs_delete`, `validate_file_transfer_name`, `get_file_path`,
    `get_revfs_file_metadata_path`, `delete_paths`),
  /repo/citadel_user/src/backend/std_file_io.rs (`StdFileIO`).

Simplifications:
* The target is a Unix system; paths are strings (`PathBuf` is serialized as a UTF-8 string, so other paths do not
  arrive).
* There are no symbolic links below the home directory, and only the backend changes the files below it.
* A path names the list of its components from the root of the file system; an operation on a path that ends in `/`
  or `.` fails for files, as does one whose parent is missing or not a directory. Permissions, quotas, limits on the
  length of names and NUL characters are left out: they make operations fail.
* The operations of the backend are atomic.
-/
namespace Verif.FileStore

abbrev Str := List Char
abbrev Bytes := List UInt8

/-- `format_path`: misc.rs lines 122-124. -/
def formatPath (s : Str) : Str := s.map fun c => if c = '\\' then '/' else c

/-- The pieces between slashes. -/
def split : Str → List Str
  | [] => [[]]
  | c :: r =>
    if c = '/' then [] :: split r
    else match split r with
      | [] => [[c]]
      | h :: t => (c :: h) :: t

/-- `std::path::Component` on Unix. -/
inductive Component where
  | root
  | cur
  | parent
  | normal (s : Str)
deriving DecidableEq, Repr

/-- One piece of a path which is not the first one; empty pieces and `.` are skipped. -/
def component? (s : Str) : Option Component :=
  if s = [] ∨ s = ['.'] then none else if s = ['.', '.'] then some .parent else some (.normal s)

/-- `Path::components` on Unix: a leading `.` of a relative path is kept. -/
def components (s : Str) : List Component :=
  match split s with
  | [] => []
  | h :: t =>
    if h = [] ∧ t ≠ [] then .root :: t.filterMap component?
    else if h = ['.'] then .cur :: t.filterMap component?
    else (h :: t).filterMap component?

/-- `validate_file_transfer_name`: file_io_backend.rs lines 502-519. -/
def validateName (name : Str) : Bool :=
  name ≠ [] && (components name).all fun c => match c with
    | .normal _ => true
    | .cur => true
    | _ => false

/-- Whether a string contains `..`. -/
def hasDots : Str → Bool
  | a :: b :: r => (a == '.' && b == '.') || hasDots (b :: r)
  | _ => false

/-- `validate_virtual_path`: misc.rs lines 79-112. -/
def validateVirtual (s : Str) : Bool := s.head? = some '/' && s.getLast? ≠ some '/' && !hasDots s

/-- `DirectoryStore`: the two directories for received files; directory_store.rs lines 145-180. -/
structure Dirs where
  virtualDir : Str
  transferDir : Str
deriving DecidableEq, Repr

/-- `setup_directory`. -/
def setup (home : Str) : Dirs :=
  let home := if home.getLast? = some '/' then home else home ++ ['/']
  { virtualDir := formatPath (home ++ "virtual/".toList), transferDir := formatPath (home ++ "transfers/".toList) }

/-- `Display` of a `u64`. -/
def cidStr (cid : Nat) : Str := Nat.toDigits 10 cid

/-- `VIRTUAL_FILE_METADATA_EXT`. -/
def ext : Str := ".vxe".toList

/-- `TransferType`. -/
inductive Kind where
  | plain (name : Str)
  | virtual (path : Str)
deriving DecidableEq, Repr

/-- The path computed by `get_file_path`: file_io_backend.rs lines 521-560. -/
def getFilePath (d : Dirs) (cid : Nat) : Kind → Option Str
  | .plain name => if validateName name then some (d.transferDir ++ cidStr cid ++ ['/'] ++ name) else none
  | .virtual path =>
    if validateVirtual (formatPath path) then some (d.virtualDir ++ cidStr cid ++ formatPath path) else none

/-- `get_revfs_file_metadata_path`: lines 562-566. -/
def metaPath (p : Str) : Str := formatPath (p ++ ext)

/-! ### The file system -/

/-- One piece of a path on the way through the directories. -/
def enter (at_ : List Str) (s : Str) : List Str :=
  if s = [] ∨ s = ['.'] then at_ else if s = ['.', '.'] then at_.dropLast else at_ ++ [s]

/-- The place a path names; relative paths start in the working directory. -/
def resolve (cwd : List Str) (p : Str) : List Str :=
  (split p).foldl enter (if p.head? = some '/' then [] else cwd)

/-- The path can name a file: it does not end in `/`, `/.` or `/..`. -/
def namesFile (p : Str) : Bool :=
  match (split p).getLast? with
  | none => false
  | some s => s ≠ [] && s ≠ ['.'] && s ≠ ['.', '.']

inductive Node where
  | dir
  | file (b : Bytes)
deriving DecidableEq, Repr

/-- The root is always there. -/
abbrev FS := List Str → Option Node

def isDir (fs : FS) (q : List Str) : Bool := q = [] || fs q = some .dir

/-- Whether one of the prefixes of a place is a file. -/
def blocked (fs : FS) : List Str → List Str → Bool
  | _, [] => false
  | pre, s :: r => (match fs (pre ++ [s]) with
    | some (.file _) => true
    | _ => false) || blocked fs (pre ++ [s]) r

/-- `create_dir_all`. -/
def createDirAll (fs : FS) (q : List Str) : Option FS :=
  if blocked fs [] q then none
  else some fun r => if r ≠ [] ∧ r.isPrefixOf q then some .dir else fs r

/-- Change one place. -/
def FS.set (fs : FS) (q : List Str) (v : Option Node) : FS := fun r => if r = q then v else fs r

/-- `File::create` and `tokio::fs::write`. -/
def write (cwd : List Str) (fs : FS) (p : Str) (b : Bytes) : Option FS :=
  let q := resolve cwd p
  if namesFile p && q ≠ [] && isDir fs q.dropLast && !isDir fs q then some (fs.set q (some (.file b))) else none

/-- `tokio::fs::read` and `File::open`. -/
def read (cwd : List Str) (fs : FS) (p : Str) : Option Bytes :=
  if namesFile p then
    match fs (resolve cwd p) with
    | some (.file b) => some b
    | _ => none
  else none

/-- `tokio::fs::remove_file`. -/
def remove (cwd : List Str) (fs : FS) (p : Str) : Option FS :=
  if namesFile p then
    match fs (resolve cwd p) with
    | some (.file _) => some (fs.set (resolve cwd p) none)
    | _ => none
  else none

/-! ### The backend -/

/-- Everything the backend needs to know. `ser` and `de` serialize `VirtualObjectMetadata`. -/
structure Env (M : Type) where
  cwd : List Str
  dirs : Dirs
  ser : M → Bytes
  de : Bytes → Option M

/-- `get_file_path` with the directory it creates: for a plain transfer the directory of the client, for a virtual
file `file_path.pop()`. -/
def prepare {M : Type} (e : Env M) (fs : FS) (cid : Nat) (k : Kind) : FS × Option Str :=
  match getFilePath e.dirs cid k with
  | none => (fs, none)
  | some p =>
    let dir := match k with
      | .plain _ => resolve e.cwd (e.dirs.transferDir ++ cidStr cid)
      | .virtual _ => (resolve e.cwd p).dropLast
    match createDirAll fs dir with
    | none => (fs, none)
    | some fs' => (fs', some p)

/-- `stream_object_to_backend`: create the file, write the metadata of a virtual file, then write the data. The second
component says whether it succeeded. -/
def store {M : Type} (e : Env M) (fs : FS) (cid : Nat) (k : Kind) (m : M) (data : Bytes) : FS × Bool :=
  match prepare e fs cid k with
  | (fs, none) => (fs, false)
  | (fs, some p) =>
    match write e.cwd fs p [] with
    | none => (fs, false)
    | some fs =>
      match k with
      | .plain _ => (fs.set (resolve e.cwd p) (some (.file data)), true)
      | .virtual _ =>
        match write e.cwd fs (metaPath p) (e.ser m) with
        | none => (fs, false)
        | some fs => (fs.set (resolve e.cwd p) (some (.file data)), true)

/-- `revfs_get_file_info`, and reading the file it returns. -/
def lookup {M : Type} (e : Env M) (fs : FS) (cid : Nat) (path : Str) : FS × Option (M × Bytes) :=
  match prepare e fs cid (.virtual path) with
  | (fs, none) => (fs, none)
  | (fs, some p) =>
    match (read e.cwd fs (metaPath p)).bind e.de, read e.cwd fs p with
    | some m, some b => (fs, some (m, b))
    | _, _ => (fs, none)

/-- `revfs_delete`: first the metadata, then the file; it stops at the first error. -/
def delete {M : Type} (e : Env M) (fs : FS) (cid : Nat) (path : Str) : FS × Bool :=
  match prepare e fs cid (.virtual path) with
  | (fs, none) => (fs, false)
  | (fs, some p) =>
    match remove e.cwd fs (metaPath p) with
    | none => (fs, false)
    | some fs =>
      match remove e.cwd fs p with
      | none => (fs, false)
      | some fs => (fs, true)

/-- The deletion after a pull (`async_delete_file`) removes the file only. -/
def deletePulled {M : Type} (e : Env M) (fs : FS) (cid : Nat) (path : Str) : FS :=
  match getFilePath e.dirs cid (.virtual path) with
  | none => fs
  | some p => (remove e.cwd fs p).getD fs

end Verif.FileStore
