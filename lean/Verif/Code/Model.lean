import Verif.Funcs.MapModel
import Verif.Union.Model
/-
Model of package code: operators and types (code/statements.go, code/types.go) and BaseGenerator (code/api.go).
`none` as the result of a constructor models a panic.

code/generate.go and package code/golang are commented out in the repository and not modelled.
-/
namespace Micro.Code
open Micro Micro.Funcs

/-! ### Operators -/

/-- code/statements.go:18-31: the unary operators, numbered from 0. -/
inductive UnaryOp where
  | inc | dec | neg | bitNot
  deriving DecidableEq

/-- code/statements.go:36-56: the binary operators, numbered from afterUnary. -/
inductive BinaryOp where
  | add | sub | mul | div | concat | bitAnd | bitOr | bitXor | bitShiftLeft | bitShiftRight | bitShiftRightArithmetic
  deriving DecidableEq

/-- code/statements.go:61-77: the boolean operators, numbered from afterBinary. -/
inductive BooleanOp where
  | not | and | or | lesser | lesserEquals | equals | greaterEquals | greater | ternary
  deriving DecidableEq

/-- code/statements.go:30: one past the last unary operator. -/
def afterUnary : Nat := 4
/-- code/statements.go:55: one past the last binary operator. -/
def afterBinary : Nat := afterUnary + 11

/-- code/statements.go:18-31: the numbers iota gives. -/
def UnaryOp.code : UnaryOp → Nat
  | .inc => 0 | .dec => 1 | .neg => 2 | .bitNot => 3

/-- code/statements.go:36-56: the numbers iota gives. -/
def BinaryOp.code : BinaryOp → Nat
  | .add => 0 + afterUnary | .sub => 1 + afterUnary | .mul => 2 + afterUnary | .div => 3 + afterUnary
  | .concat => 4 + afterUnary | .bitAnd => 5 + afterUnary | .bitOr => 6 + afterUnary | .bitXor => 7 + afterUnary
  | .bitShiftLeft => 8 + afterUnary | .bitShiftRight => 9 + afterUnary | .bitShiftRightArithmetic => 10 + afterUnary

/-- code/statements.go:61-77: the numbers iota gives. -/
def BooleanOp.code : BooleanOp → Nat
  | .not => 0 + afterBinary | .and => 1 + afterBinary | .or => 2 + afterBinary | .lesser => 3 + afterBinary
  | .lesserEquals => 4 + afterBinary | .equals => 5 + afterBinary | .greaterEquals => 6 + afterBinary
  | .greater => 7 + afterBinary | .ternary => 8 + afterBinary

/-- code/statements.go:80-82 `IsUnary`. -/
def isUnary (op : Nat) : Bool := op < afterUnary
/-- code/statements.go:85-87 `IsBinary`. -/
def isBinary (op : Nat) : Bool := op ≥ afterUnary && op < afterBinary
/-- code/statements.go:90-92 `IsBoolean`. -/
def isBoolean (op : Nat) : Bool := op ≥ afterBinary

/-- A pointer to a Val, a TypeDef ...; `none` is nil. -/
abbrev Ptr (α : Type) := Option α

/-- code/statements.go:97-102 `Expr`; an absent Maybe is `none`. -/
structure Expr (α : Type) where
  op : Nat
  val1 : α
  val2 : Option α
  val3 : Option α
  deriving DecidableEq

/-- funcs/funcs.go:1025-1034 `MustNonNilValue` on a pointer. -/
def mustNonNil {α : Type} (p : Ptr α) : Option α := p

/-- union/union.go:142-147 `Present` on a pointer. -/
def presentPtr {α : Type} (p : Ptr α) : Option (Option α) := p.map some

/-- code/statements.go:105-113 `OfUnaryExpr`. -/
def ofUnaryExpr {α : Type} (op : UnaryOp) (val : Ptr α) : Option (Expr α) := do
  let v ← mustNonNil val
  return ⟨op.code, v, none, none⟩

/-- code/statements.go:116-126 `OfBinaryExpr`. -/
def ofBinaryExpr {α : Type} (op : BinaryOp) (val1 val2 : Ptr α) : Option (Expr α) := do
  let v1 ← mustNonNil val1
  let v2 ← presentPtr val2
  return ⟨op.code, v1, v2, none⟩

/-- code/statements.go:132-156 `OfBooleanExpr`; indexing past the end of val23 panics. -/
def ofBooleanExpr {α : Type} (op : BooleanOp) (val1 : Ptr α) (val23 : List (Ptr α)) : Option (Expr α) := do
  let (val2, val3) ← match op with
    | .not => some (none, none)
    | .ternary => do
      let v2 ← presentPtr (← val23[0]?)
      let v3 ← presentPtr (← val23[1]?)
      some (v2, v3)
    | _ => do
      let v2 ← presentPtr (← val23[0]?)
      some (v2, none)
  let v1 ← mustNonNil val1
  return ⟨op.code, v1, val2, val3⟩

/-! ### Types -/

/-- code/types.go:48: one past the last scalar type. -/
def afterScalar : Nat := 21

/-- code/types.go:71-73 `IsScalar`. -/
def isScalar (typ : Nat) : Bool := typ < afterScalar
/-- code/types.go:76-78 `IsAggregate`. -/
def isAggregate (typ : Nat) : Bool := typ ≥ afterScalar

/-- code/types.go:54-63: the aggregate types. -/
inductive AggType where
  | json | array | enum | list | map | maybe | object | set
  deriving DecidableEq

/-- code/types.go:54-63: the numbers iota gives. -/
def AggType.code : AggType → Nat
  | .json => 0 + afterScalar | .array => 1 + afterScalar | .enum => 2 + afterScalar | .list => 3 + afterScalar
  | .map => 4 + afterScalar | .maybe => 5 + afterScalar | .object => 6 + afterScalar | .set => 7 + afterScalar

/-- code/types.go:93-103 `TypeDef`. -/
structure TypeDef where
  access : Nat
  typ : Nat
  arrayBounds : List Nat
  name : String
  names : List String
  keyType : Option TypeDef
  valueType : Option TypeDef

/-- code/types.go:111 (and every constructor): the first access level given, else Private. -/
def accessOf (access : List Nat) : Nat := (sliceIndex (some access) 0 [0] 0).getD 0

/-- code/types.go:106-114 `OfScalarType`; typ is the number of a scalar type. -/
def ofScalarType (typ : Nat) (access : List Nat) : Option TypeDef := some ⟨accessOf access, typ, [], "", [], none, none⟩
/-- code/types.go:117-122 `OfJSONType`. -/
def ofJSONType (access : List Nat) : Option TypeDef := some ⟨accessOf access, AggType.json.code, [], "", [], none, none⟩
/-- code/types.go:125-136 `OfArrayType`. -/
def ofArrayType (elementTyp : Ptr TypeDef) (bounds access : List Nat) : Option TypeDef := do
  let v ← presentPtr elementTyp
  return ⟨accessOf access, AggType.array.code, bounds, "", [], none, v⟩
/-- code/types.go:139-152 `OfEnumType`. -/
def ofEnumType (name : String) (baseType : Ptr TypeDef) (constants : List String) (access : List Nat) : Option TypeDef := do
  let names ← if constants.length = 0 then none else some constants
  let v ← presentPtr baseType
  return ⟨accessOf access, AggType.enum.code, [], name, names, none, v⟩
/-- code/types.go:155-164 `OfListType`. -/
def ofListType (elementType : Ptr TypeDef) (access : List Nat) : Option TypeDef := do
  let v ← presentPtr elementType
  return ⟨accessOf access, AggType.list.code, [], "", [], none, v⟩
/-- code/types.go:167-178 `OfMapType`. -/
def ofMapType (keyType valueType : Ptr TypeDef) (access : List Nat) : Option TypeDef := do
  let k ← presentPtr keyType
  let v ← presentPtr valueType
  return ⟨accessOf access, AggType.map.code, [], "", [], k, v⟩
/-- code/types.go:181-190 `OfMaybeType`. -/
def ofMaybeType (elementType : Ptr TypeDef) (access : List Nat) : Option TypeDef := do
  let v ← presentPtr elementType
  return ⟨accessOf access, AggType.maybe.code, [], "", [], none, v⟩
/-- code/types.go:193-206 `OfObjectType`. -/
def ofObjectType (baseType : Ptr TypeDef) (name : String) (generics : List String) (access : List Nat) : Option TypeDef := do
  let v ← presentPtr baseType
  return ⟨accessOf access, AggType.object.code, [], name, generics, none, v⟩
/-- code/types.go:209-218 `OfSetType`. -/
def ofSetType (elementType : Ptr TypeDef) (access : List Nat) : Option TypeDef := do
  let v ← presentPtr elementType
  return ⟨accessOf access, AggType.set.code, [], "", [], none, v⟩

/-! ### A file system

The operating system as the generator sees it: absolute paths as lists of names, directories which the user may or may not
use (read, search, write), and files. Simplifications: no links, no other processes, no disk errors; a user who is not root
may use exactly the directories marked usable; contents of files are in Verif/Code/FileModel.lean. -/

/-- An absolute path. -/
abbrev Path := List String

/-- What a path names. -/
inductive Node where
  | file
  | dir (usable : Bool)
  deriving DecidableEq

/-- The file system. -/
abbrev FS := Path → Option Node

/-- code/types.go:219-225 `ValKind`. -/
inductive ValKind where
  | litVal | varVal | varConst
  deriving DecidableEq

/-- code/types.go:229-236 `Val`. -/
structure Val where
  access : Option Nat
  kind : ValKind
  typ : TypeDef
  value : String

/-- code/types.go:239-248 `OfLitVal`; `none` is a panic. -/
def ofLitVal (typeDef : Ptr TypeDef) (val : String) : Option Val := do
  let t ← mustNonNil typeDef
  return ⟨none, .litVal, t, val⟩

/-- code/types.go:251-263 `OfVarVal`; union.First of the access levels (which are never nil). -/
def ofVarVal (konst : Bool) (typeDef : Ptr TypeDef) (val : String) (access : List Nat) : Option Val := do
  let t ← mustNonNil typeDef
  return ⟨access.head?, if konst then .varConst else .varVal, t, val⟩

/-- Errors of the operating system. -/
inductive FErr where
  | notExist | notDir | denied | exist | isDir | notEmpty
  deriving DecidableEq

/-- Resolving a path: every directory on the way must exist and be searchable. -/
def walk (root : Bool) (fs : FS) (pre : Path) : Path → Option FErr
  | [] => none
  | c :: rest => match fs pre with
    | none => some .notExist
    | some .file => some .notDir
    | some (.dir ok) => if ok || root then walk root fs (pre ++ [c]) rest else some .denied

/-- os.Stat. -/
def stat (root : Bool) (fs : FS) (p : Path) : Except FErr Node :=
  match walk root fs [] p with
  | some e => .error e
  | none => match fs p with
    | none => .error .notExist
    | some n => .ok n

/-- os.ReadDir: the error, if any. -/
def readDir (root : Bool) (fs : FS) (p : Path) : Option FErr :=
  match stat root fs p with
  | .error e => some e
  | .ok .file => some .notDir
  | .ok (.dir ok) => if ok || root then none else some .denied

/-- os.Mkdir(p, fs.ModeDir): the mode has no permission bits, so the new directory is not usable. -/
def mkdir (root : Bool) (fs : FS) (p : Path) : Option FErr × FS :=
  match walk root fs [] p with
  | some e => (some e, fs)
  | none => match fs p with
    | some _ => (some .exist, fs)
    | none => (none, Function.update fs p (some (.dir false)))

/-- os.MkdirAll(p, fs.ModeDir), as the Go library does it: nothing if p is a directory; otherwise the parent, then p. The
path is given by its names from last to first. -/
def mkdirAllR (root : Bool) (fs : FS) : List String → Option FErr × FS
  | [] => match stat root fs [] with
    | .ok (.dir _) => (none, fs)
    | _ => (some .notDir, fs)
  | c :: up =>
    match stat root fs (c :: up).reverse with
    | .ok (.dir _) => (none, fs)
    | .ok .file => (some .notDir, fs)
    | .error _ =>
      match mkdirAllR root fs up with
      | (some e, fs') => (some e, fs')
      | (none, fs') => mkdir root fs' (c :: up).reverse

/-- os.MkdirAll(p, fs.ModeDir). -/
def mkdirAll (root : Bool) (fs : FS) (p : Path) : Option FErr × FS := mkdirAllR root fs p.reverse

/-- os.RemoveAll(p): everything at or below p. `blocked` is the operating system's refusal (for instance a directory below p
that the user may not use); a failed call may have removed any part, chosen by the operating system (`part`). -/
def removeAll (blocked : Option FErr) (part fs : FS) (p : Path) : Option FErr × FS :=
  match blocked with
  | some e => (some e, part)
  | none => (none, fun q => if p <+: q then none else fs q)

/-- os.Create(p). -/
def create (root : Bool) (fs : FS) (p : Path) : Option FErr × FS :=
  match walk root fs [] p with
  | some e => (some e, fs)
  | none => match fs p with
    | some (.dir _) => (some .isDir, fs)
    | _ => (none, Function.update fs p (some .file))

/-! ### BaseGenerator -/

/-- The operating system a generator runs on. -/
structure OS where
  /-- the user is root -/
  root : Bool
  /-- path.Clean followed by the resolution of the text against the working directory -/
  resolve : List Char → Path
  /-- when RemoveAll refuses, and what is then left -/
  blocked : FS → Path → Option FErr
  part : FS → Path → FS

/-- code/api.go:51-62 `BaseGenerator`; the current source writer is the path of its file. -/
structure Gen where
  basePath : Union.Maybe (List Char)
  dirs : GoMap (List Char) Bool
  currentDir : List Char
  srcs : GoMap (List Char) (GoMap (List Char) Bool)
  currentSrc : Option Path

/-- The zero BaseGenerator. -/
def Gen.zero : Gen := ⟨⟨[], false⟩, none, [], none, none⟩

/-- A string is never nil (reflect kind string). -/
def refStr (_ : List Char) : Option Union.RV := some ⟨.other, false, false⟩

/-- How a call ends. -/
inductive Res where
  | returned
  | panicked
  deriving DecidableEq

/-- code/api.go:64-66 `GetBasePath`; Maybe.Get panics if empty. -/
def getBasePath (g : Gen) : Option (List Char) := if g.basePath.present then some g.basePath.v else none

/-- code/api.go:69-101 `SetBasePath`. The error that SetOrError returns is dropped (line 72). -/
def setBasePath (os : OS) (g : Gen) (fs : FS) (bp : List Char) : Res × Gen × FS :=
  let g := { g with basePath := (g.basePath.setOrError refStr bp).2 }
  let p := os.resolve bp
  match readDir os.root fs p with
  | some .notExist =>
    match mkdirAll os.root fs p with
    | (some _, fs) => (.panicked, g, fs)
    | (none, fs) => (.returned, g, fs)
  | some _ => (.panicked, g, fs)
  | none =>
    match removeAll (os.blocked fs p) (os.part fs p) fs p with
    | (some _, fs) => (.panicked, g, fs)
    | (none, fs) =>
      match mkdir os.root fs p with
      | (some _, fs) => (.panicked, g, fs)
      | (none, fs) => (.returned, g, fs)

/-- code/api.go:104-119 `Dir`. The keys of the map dirs are cleaned texts; here the texts themselves, which makes no difference
while the map is nil. -/
def dir (os : OS) (g : Gen) (fs : FS) (name : List Char) : Res × Gen × FS :=
  match getBasePath g with
  | none => (.panicked, g, fs)
  | some b =>
    let t := b ++ ['/'] ++ name
    if (g.dirs.get t).isSome then (.panicked, g, fs)
    else match mkdirAll os.root fs (os.resolve t) with
      | (some _, fs) => (.panicked, g, fs)
      | (none, fs) => match g.dirs.write t true with
        | none => (.panicked, g, fs)
        | some d => (.returned, { g with dirs := d }, fs)

/-- code/api.go:122-137 `Src`. -/
def src (os : OS) (g : Gen) (fs : FS) (name : List Char) : Res × Gen × FS :=
  if map2Test g.srcs g.currentDir name then (.panicked, g, fs)
  else
    let p := os.resolve (g.currentDir ++ ['/'] ++ name)
    match create os.root fs p with
    | (some _, fs) => (.panicked, g, fs)
    | (none, fs) => match map2Set g.srcs g.currentDir name true with
      | none => (.panicked, g, fs)
      | some s => (.returned, { g with srcs := s, currentSrc := some p }, fs)

/-- A call of one of the methods. -/
inductive GOp where
  | setBasePath (bp : List Char)
  | dir (name : List Char)
  | src (name : List Char)

/-- Its effect. The caller may recover from a panic and go on. -/
def runG (os : OS) (s : Gen × FS) : GOp → Res × Gen × FS
  | .setBasePath bp => setBasePath os s.1 s.2 bp
  | .dir name => dir os s.1 s.2 name
  | .src name => src os s.1 s.2 name

/-- A history of calls. -/
def runGs (os : OS) (s : Gen × FS) : List GOp → Gen × FS
  | [] => s
  | op :: ops => runGs os (runG os s op).2 ops

end Micro.Code
