/- Model of victor/src/main.rs: the program `victor input.html output.pdf`. -/
import Verif.Layout.Paint
import Verif.Dom.Model
namespace Verif.Layout
open Verif.Pdf Verif.Dom

/-- The contents of the files of a system, by their paths. Simplified: a path is the name of one file, without links. -/
def Files (Path : Type) := Path → Option (List Byte)

/-- The same files, but for one. -/
def Files.put {Path : Type} [DecidableEq Path] (files : Files Path) (path : Path) (bytes : List Byte) : Files Path :=
  fun p => if p = path then some bytes else files p

/-- What the operating system answers to a `write`: how many bytes it took, that it was interrupted, or an error. -/
inductive WriteAnswer (Io : Type) where
  | took (n : Nat)
  | interrupted
  | error (e : Io)

/-- The operating system as the program sees it. Simplified: what reading a file gives, or an error, is one answer. The program is killed
when there are no more answers to its writes. -/
structure System (Path Io : Type) where
  read : Path → Except Io (List Byte)
  create : Path → Except Io Unit
  answers : List (WriteAnswer Io)

/-- How the program ends. Simplified: `panicked` also stands for not ending. -/
inductive Exit (Io : Type) where
  | success
  | usage
  | io (e : Io)
  | writeZero
  | panicked
  | killed

section
variable {Path Io : Type} [DecidableEq Path]

/-- `Write::write_all` of the standard library, as called by `std::fs::write` in main.rs 10, on a file that has the bytes `done`. The first
result is what is in the files after each write. -/
def writeAll (path : Path) (files : Files Path) : List (WriteAnswer Io) → (done rest : List Byte) → List (Files Path) × Exit Io
  | _, _, [] => ([], .success)
  | [], _, _ :: _ => ([], .killed)
  | .interrupted :: answers, done, rest => writeAll path files answers done rest
  | .error e :: _, _, _ :: _ => ([], .io e)
  | .took n :: answers, done, rest =>
    if n = 0 then ([], .writeZero)
    else if n ≤ rest.length then
      let result := writeAll path files answers (done ++ rest.take n) (rest.drop n)
      (files.put path (done ++ rest.take n) :: result.1, result.2)
    else ([], .panicked)

/-- main.rs 10, `std::fs::write`: `File::create`, which makes the file empty, and `write_all`. -/
def writeFile (S : System Path Io) (path : Path) (bytes : List Byte) (files : Files Path) : List (Files Path) × Exit Io :=
  match S.create path with
  | .error e => ([], .io e)
  | .ok () =>
    let result := writeAll path (files.put path []) S.answers [] bytes
    (files.put path [] :: result.1, result.2)

/-- main.rs 1-12, `main`, with the arguments of the command line. `parse` are the calls that html5ever makes when it parses the bytes
(main.rs 8), and `pdf` is `to_pdf_bytes` (main.rs 9). The first result is what is in the files after each change. -/
def program (S : System Path Io) (parse : List Byte → List SinkOp) (pdf : Document → Option (List Byte)) (args : List Path)
    (files : Files Path) : List (Files Path) × Exit Io :=
  match args with
  | _ :: input :: output :: _ =>
    match S.read input with
    | .error e => ([], .io e)
    | .ok bytes =>
      match Document.new.runOps (parse bytes) with
      | none => ([], .panicked)
      | some doc =>
        match pdf doc with
        | none => ([], .panicked)
        | some pdf => writeFile S output pdf files
  | _ => ([], .usage)

end

end Verif.Layout
