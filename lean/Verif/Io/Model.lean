import Mathlib.Data.List.Sort
import Mathlib.Data.List.Lex
import Mathlib.Data.Char

/-!
C64: loading and writing maps through the registered handlers. Model of lanelet2_io/src/Io.cpp, Factory.cpp, the handler base classes
(io_handlers/IoHandler.h, Parser.h, Writer.h) and the frame of the handlers for osm and bin files.

Strings are lists of characters. `P` are projectors, `C` configurations, `M` maps. What parsers do with a file is a parameter.
-/
namespace Verif.Io

/-- std::string. -/
abbrev Str := List Char

/-- the exceptions, lanelet2_io/Exceptions.h; `other`: what a handler throws itself -/
inductive Exn
  | fileNotFound
  | unsupportedExtension
  | unsupportedHandler
  | parse (messages : List Str)
  | write (messages : List Str)
  /-- IOError: default origin -/
  | noOrigin
  | other (what : Str)
  deriving DecidableEq

/-! ### the factory -/

/-- std::map: sorted by key; Factory.h 68-69, 124-125 -/
abbrev SMap (H : Type) := List (Str × H)

/-- `m[k] = v`; Factory.cpp 72-74, 130-132 -/
def SMap.assign {H : Type} (k : Str) (v : H) : SMap H → SMap H
  | [] => [(k, v)]
  | (k', v') :: m => if k < k' then (k, v) :: (k', v') :: m else if k = k' then (k, v) :: m else (k', v') :: SMap.assign k v m

/-- `m.find(k)`; Factory.cpp 26, 38, 84, 96 -/
def SMap.find {H : Type} (m : SMap H) (k : Str) : Option H := (List.find? (fun e => decide (e.1 = k)) m).map (·.2)

/-- ParserFactory and WriterFactory, Factory.h 68-69, 124-125 -/
structure Factory (H : Type) where
  registry : SMap H
  extensionRegistry : SMap H

/-- registerParser, Factory.cpp 70-76, registerWriter, Factory.cpp 128-134 -/
def Factory.register {H : Type} (f : Factory H) (strategy extension : Str) (h : H) : Factory H :=
  { registry := f.registry.assign strategy h
    extensionRegistry := if extension.isEmpty then f.extensionRegistry else f.extensionRegistry.assign extension h }

/-- a RegisterParser or RegisterWriter object, Factory.h 134-144, 152-162 -/
structure Registration (H : Type) where
  name : Str
  extension : Str
  handler : H

/-- the factory after static initialisation; the order of the registrations depends on the linker; Factory.h 135-162 -/
def Factory.ofRegistrations {H : Type} (rs : List (Registration H)) : Factory H :=
  rs.foldl (fun f r => f.register r.name r.extension r.handler) ⟨[], []⟩

/-- create, Factory.cpp 23-33, 81-91; the message is not modelled -/
def Factory.create {H : Type} (f : Factory H) (name : Str) : Except Exn H :=
  match f.registry.find name with
  | some h => .ok h
  | none => .error .unsupportedHandler

/-- createFromExtension, Factory.cpp 35-45, 93-103 -/
def Factory.createFromExtension {H : Type} (f : Factory H) (extension : Str) : Except Exn H :=
  match f.extensionRegistry.find extension with
  | some h => .ok h
  | none => .error .unsupportedExtension

/-- std::sort; Factory.cpp 47-63, 105-121 -/
def sortStr (l : List Str) : List Str := l.insertionSort (· ≤ ·)

/-- availableParsers, Factory.cpp 47-54, availableWriters, Factory.cpp 105-112 -/
def Factory.available {H : Type} (f : Factory H) : List Str := sortStr (f.registry.map (·.1))

/-- availableExtensions, Factory.cpp 56-63, 114-121 -/
def Factory.availableExtensions {H : Type} (f : Factory H) : List Str := sortStr (f.extensionRegistry.map (·.1))

/-! ### Io.cpp -/

/-- the part behind the last '/'; Io.cpp 12-14 (boost::filesystem) -/
def fileName (path : Str) : Str := (path.reverse.takeWhile (· != '/')).reverse

/-- extension, Io.cpp 12, with boost::filesystem::path::extension (version 3): from the last dot of the file name on; nothing for
"." and ".." -/
def extension (path : Str) : Str :=
  let name := fileName path
  if name = ['.'] ∨ name = ['.', '.'] then []
  else if '.' ∈ name then '.' :: (name.reverse.takeWhile (· != '.')).reverse
  else []

/-- handleErrorsOrThrow, Io.cpp 14-21; `target` is what the pointer refers to, `none` for a null pointer -/
def handleErrorsOrThrow (mk : List Str → Exn) (errors : List Str) (target : Option (List Str)) : Except Exn (Option (List Str)) :=
  match target with
  | some _ => .ok (some errors)
  | none => if !errors.isEmpty then .error (mk errors) else .ok none

/-- what a call returns or throws, and what the pointer to the error messages refers to afterwards; Io.cpp 15-22, 24-85 -/
structure Outcome (α : Type) where
  result : Except Exn α
  errors : Option (List Str)

/-- the end of load and write: the handler was called with an empty list of errors; Io.cpp 15-22, 30-85 -/
def finish {α : Type} (mk : List Str → Exn) (r : Except Exn (α × List Str)) (target : Option (List Str)) : Outcome α :=
  match r with
  | .error e => ⟨.error e, target⟩
  | .ok (x, errs) =>
    match handleErrorsOrThrow mk errs target with
    | .error e => ⟨.error e, target⟩
    | .ok t => ⟨.ok x, t⟩

/-- a parser, Parser.h: the map and the errors, or an exception -/
structure Parser (M : Type) where
  parse : Str → Except Exn (M × List Str)

/-- load with the parser for the extension, Io.cpp 29-39 -/
def load {P C M : Type} (f : Factory (P → C → Parser M)) (exist : Str → Bool) (filename : Str) (projector : P) (target : Option (List Str))
    (params : C) : Outcome M :=
  if !exist filename then ⟨.error .fileNotFound, target⟩ else
  finish .parse (do
    let h ← f.createFromExtension (extension filename)
    (h projector params).parse filename) target

/-- load with a given parser, Io.cpp 46-55 -/
def loadWith {P C M : Type} (f : Factory (P → C → Parser M)) (exist : Str → Bool) (filename parserName : Str) (projector : P)
    (target : Option (List Str)) (params : C) : Outcome M :=
  if !exist filename then ⟨.error .fileNotFound, target⟩ else
  finish .parse (do
    let h ← f.create parserName
    (h projector params).parse filename) target

/-- a writer, Writer.h: what it writes and the errors, or an exception. `D`: content of the disk. -/
structure Writer (C M D : Type) where
  write : Str → M → C → Except Exn (D × List Str)

/-- write with the writer for the extension, Io.cpp 65-69 -/
def write {P C M D : Type} (f : Factory (P → C → Writer C M D)) (filename : Str) (map : M) (projector : P) (target : Option (List Str))
    (params : C) : Outcome D :=
  finish .write (do
    let h ← f.createFromExtension (extension filename)
    (h projector params).write filename map params) target

/-- write with a given writer, Io.cpp 75-80 -/
def writeWith {P C M D : Type} (f : Factory (P → C → Writer C M D)) (filename : Str) (map : M) (writerName : Str) (projector : P)
    (target : Option (List Str)) (params : C) : Outcome D :=
  finish .write (do
    let h ← f.create writerName
    (h projector params).write filename map params) target

/-! ### the handlers for osm and bin files -/

/-- IOHandler::projector, IoHandler.h 34-39, with Parser::handleDefaultProjector, Parser.h 31-33 -/
def parserProjector {P : Type} (isDefault : P → Bool) (p : P) : Except Exn P := if isDefault p then .error .noOrigin else .ok p

/-- the same with Writer::handleDefaultProjector, Writer.h 33-37, that only prints -/
def writerProjector {P : Type} (_isDefault : P → Bool) (p : P) : Except Exn P := .ok p

/-- buildErrorMessage, OsmHandlerLoad.cpp 47-57, and OsmHandlerWrite.cpp 273-283 -/
def buildErrorMessage (intro : Str) (errors : List Str) : List Str :=
  if errors.isEmpty then [] else intro :: errors.map (['\t', '-', ' '] ++ ·)

/-- what the parser for osm files relies on: pugixml, OsmFileParser::read without its last step, and FromFileLoader::loadMap; see
`Verif.Osm` for these; OsmHandlerLoad.cpp 422-446 -/
structure OsmCore (P X F M : Type) where
  isDefault : P → Bool
  /-- load_file, `none` if it fails -/
  xml : Str → Option X
  /-- the file, and the errors of the parser -/
  read : X → F × List Str
  loadMap : P → F → M × List Str
  /-- the warning if the decimal point of the locale is no dot -/
  locale : Option Str
  readIntro : Str

/-- osm::read, OsmFile.cpp 191-202: the errors replace what the pointer refers to -/
def OsmCore.readFile {P X F M : Type} (o : OsmCore P X F M) (x : X) (_errors : List Str) : F × List Str := ((o.read x).1, (o.read x).2)

/-- OsmParser::parse, OsmHandlerLoad.cpp 422-439, with testAndPrintLocaleWarning 410-419 and fromOsmFile 441-443; the ids are not
modelled here -/
def OsmCore.parse {P X F M : Type} (o : OsmCore P X F M) (p : P) (filename : Str) : Except Exn (M × List Str) :=
  match o.xml filename with
  | none => .error (.parse [])
  | some x => do
    let osmReadErrors := o.locale.toList
    let r := o.readFile x osmReadErrors
    let proj ← parserProjector o.isDefault p
    let m := o.loadMap proj r.1
    return (m.1, buildErrorMessage o.readIntro (r.2 ++ m.2))

/-- what the writer for osm files relies on; OsmHandlerWrite.cpp 299-312 -/
structure OsmWriteCore (P C F M D : Type) where
  isDefault : P → Bool
  /-- ToFileWriter::writeMap without its last step: the file and the errors -/
  writeMap : P → M → C → F × List Str
  /-- save_file, `none` if it fails -/
  save : Str → F → C → Option D
  locale : Option Str
  writeIntro : Str

/-- OsmWriter::write, OsmHandlerWrite.cpp 299-307, with testAndPrintLocaleWarning 287-296 and toOsmFile 309-311; buildErrorMessage 273-283
first clears the errors -/
def OsmWriteCore.write {P C F M D : Type} (o : OsmWriteCore P C F M D) (p : P) (filename : Str) (m : M) (params : C) : Except Exn (D × List Str) := do
  let _errors := o.locale.toList
  let proj ← writerProjector o.isDefault p
  let r := o.writeMap proj m params
  let errors := buildErrorMessage o.writeIntro r.2
  match o.save filename r.1 params with
  | none => .error (.parse [])
  | some d => return (d, errors)

/-- BinWriter::write, BinHandler.cpp 21-30: `save` is `none` if the file cannot be opened; never reports errors -/
def binWrite {M D : Type} (save : Str → M → Option D) (filename : Str) (m : M) : Except Exn (D × List Str) :=
  match save filename m with
  | none => .error (.parse [])
  | some d => .ok (d, [])

/-- BinParser::parse, BinHandler.cpp 32-44: `open` is `none` if the file cannot be opened; the projector is not used -/
def binParse {M : Type} (open_ : Str → Option (Except Exn M)) (filename : Str) : Except Exn (M × List Str) :=
  match open_ filename with
  | none => .error (.parse [])
  | some r => do
    let m ← r
    return (m, [])

end Verif.Io
