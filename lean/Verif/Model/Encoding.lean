import Verif.Model.Sources

/-!
# Text files are made of bytes

`Model/Sources.lean` starts from the text behind each file name.  Here the files hold bytes.  `codecs.open(f, 'r', 'utf8')` (kanji_list.py:27, pinyin_table.py:44) decodes them
as UTF-8.  `open(f)` (radkdict.py:23, zhuyin_table.py:18, split_by_codes.py:19) and `sopen(f, 'r')` (place.py:70, kanjidic.py:106, tatoeba.py:76) leave the choice to Python, which takes the encoding of the
locale: on Python 3 `sopen` ignores its argument `encoding` (common.py:51-58, 70).

Simplifications: bytes that cannot be decoded are noticed when the file is opened (in fact when the part of the file is read); a `UnicodeError` is a `ValueError`.
Compressed files yield bytes whatever the locale (C103).
-/

namespace Cjk
open Py

/-- A text encoding with the error handler `strict`. -/
structure TextCodec where
  decode : List Nat → Except PyErr Str
  encode : Str → Except PyErr (List Nat)

/-- What UTF-8 can hold: no surrogates. -/
def isScalar (c : Nat) : Bool := decide (c < 0x110000) && !(decide (0xd800 ≤ c) && decide (c ≤ 0xdfff))

/-- Decoding UTF-8 from left to right: `need` bytes of the current character are missing, `acc` are its bits so far, and it must be at least `low`. -/
def utf8Go : Nat → Nat → Nat → List Nat → Option Str
  | 0, _, _, [] => some []
  | _ + 1, _, _, [] => none
  | 0, _, _, b :: rest =>
    if b < 0x80 then (utf8Go 0 0 0 rest).map (b :: ·)
    else if b < 0xc0 then none
    else if b < 0xe0 then utf8Go 1 (b - 0xc0) 0x80 rest
    else if b < 0xf0 then utf8Go 2 (b - 0xe0) 0x800 rest
    else if b < 0xf8 then utf8Go 3 (b - 0xf0) 0x10000 rest
    else none
  | need + 1, acc, low, b :: rest =>
    if 0x80 ≤ b ∧ b < 0xc0 then
      let v := acc * 64 + (b - 0x80)
      match need with
      | 0 => if low ≤ v ∧ isScalar v = true then (utf8Go 0 0 0 rest).map (v :: ·) else none
      | n + 1 => utf8Go (n + 1) v low rest
    else none

/-- `'utf8'` -/
def utf8Codec : TextCodec where
  decode b := match utf8Go 0 0 0 b with
    | some s => .ok s
    | none => .error .valueError
  encode s := if s.all isScalar then .ok (utf8 s) else .error .valueError

/-- An encoding with one byte for each character, given by its two tables. -/
structure ByteTable where
  toChr : Nat → Option Nat
  toByte : Nat → Option Nat

/-- All or nothing. -/
def mapAll (f : Nat → Option Nat) : List Nat → Except PyErr (List Nat)
  | [] => .ok []
  | b :: rest =>
    match f b, mapAll f rest with
    | some c, .ok s => .ok (c :: s)
    | _, _ => .error .valueError

/-- The encoding of a table. -/
def ByteTable.codec (t : ByteTable) : TextCodec := ⟨mapAll t.toChr, mapAll t.toByte⟩

/-- `'latin-1'` -/
def latin1 : ByteTable := ⟨fun b => if b < 256 then some b else none, fun c => if c < 256 then some c else none⟩

/-- `'ascii'` -/
def asciiTable : ByteTable := ⟨fun b => if b < 128 then some b else none, fun c => if c < 128 then some c else none⟩

/-- A disk with bytes. -/
structure ByteDisk where
  env : DataEnv
  file : Str → Except PyErr (List Nat)
  stdin : Str

/-- The texts that a program finds if it opens its files with a given encoding. -/
def ByteDisk.view (d : ByteDisk) (c : TextCodec) : DataDisk where
  env := d.env
  file f := match d.file f with
    | .error e => .error e
    | .ok b => if endsWith f u!".bz2" || endsWith f u!".gz" then utf8Codec.decode b else c.decode b
  stdin := d.stdin

/-- `sopen(f, mode='r', encoding=encoding)` (common.py:30-72) on Python 3 in a locale, read line by line: `streamhandler` is the identity (line 58), and `open` (line 70) gets no
encoding. -/
def sopenLinesAt (locale : TextCodec) (d : ByteDisk) (_encoding : TextCodec) (f : Str) : Load Lines := sopenLines (d.view locale) f

/-- `RadkDict()` (radkdict.py:22-40) in a locale. -/
def radkDictAt (locale : TextCodec) (d : ByteDisk) : Load RadkDict := loadRadkDict (d.view locale) none

/-- `Kanjidic(files)` (kanjidic.py:96-110) in a locale. -/
def kanjidicAt (locale : TextCodec) (d : ByteDisk) (files : Option (List Str)) : Load (Dict Str KEntry) := loadKanjidic (d.view locale) files

/-- `zhuyin_to_pinyin_table()` (zhuyin_table.py:17-38) in a locale. -/
def zhuyinToPinyinAt (locale : TextCodec) (d : ByteDisk) : Load (Dict Str Str) := loadZhuyinToPinyin (d.view locale) none

/-- `load_coded_dictionary(f)` (split_by_codes.py:16-47) in a locale. -/
def codedAt (locale : TextCodec) (d : ByteDisk) (order : List Str → List Str) (f : Str) : Load Coded := loadCodedFrom (d.view locale) order (.path f)

/-- `reader.sentences = f` (tatoeba.py:53-84, 189-241) in a locale. -/
def sentencesAt {D : Type} (locale : TextCodec) (d : ByteDisk) (lim : Nat) (strptime : Str → Except PyErr D) (languages : Option (List Str)) (f : Str) :
    Load (SentData D) := loadSentences (d.view locale) lim strptime languages (.path f)

/-- `Place.from_file(f)` (place.py:68-106) in a locale. -/
def loadPlaceAt (locale : TextCodec) (d : ByteDisk) (f : Str) : Load PStore := loadPlace (d.view locale) f

/-- `get_list(name)` (kanji_list.py:24-28), with `codecs.open`. -/
def kanjiListAt (_locale : TextCodec) (d : ByteDisk) (name : Str) : Except PyErr (List Chr) := getKanjiList d.env (d.view utf8Codec).file name

/-- `place.dump(f)` (place.py:63-66) in a locale, for a plain file: the bytes of the file afterwards, if it was written completely, and the exception. -/
def dumpPlaceAt (locale : TextCodec) (d : ByteDisk) (r : Str → Str) (p : Place) (f : Str) : Option (List Nat) × Option PyErr :=
  match d.file f with
  | .error e => (none, some e)
  | .ok _ =>
    match locale.encode (placeDump r p).flatten with
    | .ok b => (some b, none)
    | .error e => (none, some e)

end Cjk
