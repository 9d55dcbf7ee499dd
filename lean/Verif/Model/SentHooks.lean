import Verif.Model.Tatoeba
/-!
# Model of a sentence reader whose `filter_row` and `parse_date` are overridden in any way (tatoeba.py:189-241, 255-265)

Methods of a subclass may keep a state, change the row they are given, change the attribute `languages`, and raise.  What they do next is a function of the calls that they
have seen, so they are modelled as functions of the history of calls.  Model/FilterRow.lean has the case of a `filter_row` that is a predicate.

Simplified: the methods do not assign `sentences` themselves, and leave rows as lists of texts.
-/

namespace Cjk
open Py

/-- A call of a method of the subclass, with its argument. -/
inductive HookCall where
  | filter (row : List Str)
  | date (text : Str)
deriving DecidableEq

/-- The subclass: after a history of calls, the languages wanted; the truth of `filter_row(row)` and the row as it leaves it; the value of `parse_date(text)`. -/
structure SentHooks (D : Type) where
  languages : List HookCall → Option (List Str)
  filterRow : List HookCall → List Str → Except PyErr (Bool × List Str)
  parseDate : List HookCall → Str → Except PyErr (Option D)

/-- The detail columns of a row (tatoeba.py:230-236), with the calls of `parse_date`. -/
def hookDetails {D : Type} (h : SentHooks D) (log : List HookCall) (row : List Str) : List HookCall × Except PyErr (Details D) :=
  match (row.drop 3).take 3 with
  | [uname, added, modified] =>
    match h.parseDate log added with
    | .error e => (log ++ [.date added], .error e)
    | .ok a =>
      match h.parseDate (log ++ [.date added]) modified with
      | .error e => (log ++ [.date added, .date modified], .error e)
      | .ok m => (log ++ [.date added, .date modified], .ok (if uname = u!"\\N" then none else some uname, a, m))
  | _ => (log, .error .valueError)

/-- The loop body behind the call of `filter_row` (tatoeba.py:219-236). -/
def hookKept {D : Type} (h : SentHooks D) (log : List HookCall) (a : SentData D) (row : List Str) : List HookCall × Except PyErr (SentData D) :=
  match row.take 3 with
  | [idText, lang, text] =>
    if langOk (h.languages log) lang = false then (log, .ok a)
    else
      match pyInt 10 idText with
      | .error e => (log, .error e)
      | .ok i =>
        match a.info with
        | none => (log, .ok { a with lang := addLang a.lang lang i, sent := Dict.set a.sent i text })
        | some info =>
          match hookDetails h log row with
          | (log', .error e) => (log', .error e)
          | (log', .ok d) => (log', .ok ⟨addLang a.lang lang i, Dict.set a.sent i text, some (Dict.set info i d)⟩)
  | _ => (log, .error .valueError)

/-- The loop body (tatoeba.py:215-236). -/
def hookRow {D : Type} (h : SentHooks D) (log : List HookCall) (a : SentData D) (row : List Str) : List HookCall × Except PyErr (SentData D) :=
  match h.filterRow log row with
  | .error e => (log ++ [.filter row], .error e)
  | .ok (true, _) => (log ++ [.filter row], .ok a)
  | .ok (false, row') => hookKept h (log ++ [.filter row]) a row'

/-- The loop over the rows. -/
def hookRows {D : Type} (h : SentHooks D) (log : List HookCall) (a : SentData D) : List (List Str) → List HookCall × Except PyErr (SentData D)
  | [] => (log, .ok a)
  | row :: rows =>
    match hookRow h log a row with
    | (log', .error e) => (log', .error e)
    | (log', .ok a') => hookRows h log' a' rows

/-- What the setter computes from the rows (tatoeba.py:190-236), and the calls it makes; an exception of the file comes after its rows. -/
def hookLoad {D : Type} (h : SentHooks D) (rows : Rows) : List HookCall × Except PyErr (SentData D) :=
  match rows.1 with
  | [] => ([], .error (rows.2.getD .stopIteration))
  | first :: _ =>
    if first.length = 3 ∨ first.length = 6 then
      match hookRows h [] ⟨[], [], if first.length = 6 then some [] else none⟩ rows.1 with
      | (log, .error e) => (log, .error e)
      | (log, .ok a) =>
        match rows.2 with
        | some e => (log, .error e)
        | none => (log, .ok a)
    else ([], .error .invalidFileError)

/-- `reader.sentences = src` (tatoeba.py:189-241): the data of the reader afterwards, the exception raised, if any, and the calls made. -/
def hookAssign {D : Type} (h : SentHooks D) (data : SentData D) (rows : Rows) : SentData D × Option PyErr × List HookCall :=
  match hookLoad h rows with
  | (log, .error e) => (data, some e, log)
  | (log, .ok a) => (a, none, log)

/-- The methods of the class itself (tatoeba.py:254-265). -/
def SentHooks.default {D : Type} (strptime : Str → Except PyErr D) (languages : Option (List Str)) : SentHooks D :=
  ⟨fun _ => languages, fun _ row => .ok (false, row), fun _ text => Cjk.parseDate strptime text⟩

end Cjk
