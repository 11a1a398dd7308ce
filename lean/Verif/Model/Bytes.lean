import Verif.Model.Parser
/-
Files as bytes.  The parser reads with `BufRead::read_line` (src/parser.rs:110, 275) on a `BufReader` over the opened file
(src/parser.rs:94, src/lib.rs:145).  `read_line` of the standard library reads the bytes up to and including the next byte 10,
or to the end, and gives an error if they are not UTF-8; they are consumed then and the buffer is left as it was.
I/O errors are not modelled here.
-/
namespace Ledger.Bytes
open Ledger Ledger.Parser

abbrev Byte := UInt8

/-- The pieces that `read_until(b'\n')` delivers one after the other. -/
def byteLines : List Byte → List (List Byte)
  | [] => []
  | b :: bs =>
    if b = 10 then [10] :: byteLines bs
    else match byteLines bs with
      | [] => [[b]]
      | l :: ls => (b :: l) :: ls

/-- A continuation byte. -/
def isCont (b : Byte) : Bool := 0x80 ≤ b && b ≤ 0xBF

/-- `str::from_utf8` (core::str::validations, `run_utf8_validation`): the bytes that may begin a character and the range of
the second byte after each of them.  Returns the characters, `none` if the bytes are not valid. -/
def decode : List Byte → Option Str
  | [] => some []
  | a :: as =>
    if a < 0x80 then (decode as).map (Char.ofNat a.toNat :: ·)
    else match as with
      | [] => none
      | b :: bs =>
        if 0xC2 ≤ a && a ≤ 0xDF then
          if isCont b then (decode bs).map (Char.ofNat ((a.toNat - 0xC0) * 64 + (b.toNat - 0x80)) :: ·) else none
        else match bs with
          | [] => none
          | c :: cs =>
            if (a = 0xE0 && 0xA0 ≤ b && b ≤ 0xBF) || (0xE1 ≤ a && a ≤ 0xEC && isCont b) ||
                (a = 0xED && 0x80 ≤ b && b ≤ 0x9F) || (0xEE ≤ a && a ≤ 0xEF && isCont b) then
              if isCont c then
                (decode cs).map
                  (Char.ofNat ((a.toNat - 0xE0) * 4096 + (b.toNat - 0x80) * 64 + (c.toNat - 0x80)) :: ·)
              else none
            else match cs with
              | [] => none
              | d :: ds =>
                if (a = 0xF0 && 0x90 ≤ b && b ≤ 0xBF) || (0xF1 ≤ a && a ≤ 0xF3 && isCont b) ||
                    (a = 0xF4 && 0x80 ≤ b && b ≤ 0x8F) then
                  if isCont c && isCont d then
                    (decode ds).map (Char.ofNat ((a.toNat - 0xF0) * 262144 + (b.toNat - 0x80) * 4096 +
                      (c.toNat - 0x80) * 64 + (d.toNat - 0x80)) :: ·)
                  else none
                else none

/-- What the reader delivers of a file. -/
def byteSource (bs : List Byte) : Source := (byteLines bs).map decode

/-- The files that can be opened and their contents. -/
abbrev Disk := Str → Option (List Byte)

/-- The files of a disk as the parser reads them. -/
def Disk.files (d : Disk) : Files := fun f => (d f).map byteSource

end Ledger.Bytes
