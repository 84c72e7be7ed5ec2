import Verif.Model.Config

/-!
# Errors that travel between processes

`fixit_paths` runs files in other processes, and their results come back pickled (api.py:300-310). Python rebuilds an exception from what `__reduce__` gives: a class, arguments for it, and
attributes to set afterwards. The inherited `BaseException.__reduce__` gives `self.args` and the instance's attributes.
-/

namespace Fixit
open Py

/-- A value in an exception: a text, a rule reference, a configuration (named by a number), or `None` (config.py:64-76). -/
inductive Item where
  | text (s : PStr)
  | rule (q : QualifiedRule)
  | config (n : Nat)
  | none

/-- The two classes, config.py:64-76. -/
inductive ErrorClass where
  | configError
  | collectionError
  deriving DecidableEq

/-- An exception object: its class, `args`, and its attributes (config.py:64-73). -/
structure ErrorObject where
  cls : ErrorClass
  args : List Item
  attrs : List (PStr × Item)

/-- `cls(*args)`: `ConfigError.__init__`, config.py:65-67, and `CollectionError.__init__`, config.py:71-73. A wrong number of arguments is a TypeError. -/
def construct : ErrorClass → List Item → Except Err ErrorObject
  | .configError, [msg] => .ok ⟨.configError, [msg], [(py "config", .none)]⟩
  | .configError, [msg, config] => .ok ⟨.configError, [msg], [(py "config", config)]⟩
  | .collectionError, [msg, rule] => .ok ⟨.collectionError, [msg], [(py "rule", rule)]⟩
  | _, _ => .error .type

/-- `self.rule` (config.py:76). -/
def ErrorObject.attr (e : ErrorObject) (name : PStr) : Except Err Item :=
  match e.attrs.find? (fun a => a.1 = name) with
  | some a => .ok a.2
  | none => .error .attribute

/-- What `__reduce__` returns: the class, arguments, and attributes to set (config.py:75-76). -/
structure Reduced where
  cls : ErrorClass
  args : List Item
  state : List (PStr × Item)

/-- `BaseException.__reduce__`, inherited by `ConfigError` (config.py:64). -/
def baseReduce (e : ErrorObject) : Reduced := ⟨e.cls, e.args, e.attrs⟩

/-- `__reduce__`, config.py:75-76 for `CollectionError`. -/
def reduce (e : ErrorObject) : Except Err Reduced :=
  match e.cls with
  | .configError => .ok (baseReduce e)
  | .collectionError => (e.attr (py "rule")).map (fun rule => ⟨e.cls, e.args ++ [rule], []⟩)

/-- Rebuilding the exception in the other process (config.py:75-76). -/
def rebuild (r : Reduced) : Except Err ErrorObject :=
  (construct r.cls r.args).map (fun e => { e with attrs := dictUpdate e.attrs r.state })

end Fixit
