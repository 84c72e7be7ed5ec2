import Verif.Model.System
import Verif.Spec.Api
import Verif.Spec.Collect
import Verif.Spec.Tags
import Verif.Props.Suppression
import Verif.Props.Collect

/-!
# What Fixit reports, from beginning to end
-/

namespace Spec
open Py Fixit

section
variable {V M : Type} (o : Outside V M)

/-- A comment associated with the node silences the rule: its first directive names no rule, or this one. -/
def Silenced (m : Node) (node : Nat) (name : PStr) : Prop :=
  ∃ comment, Associated (o.tree m) (o.pos m node) comment ∧
    ∃ kw names, FirstDirective o.unicode comment kw names ∧ (names = none ∨ ∃ ns n, names = some ns ∧ n ∈ ns ∧ Names o.unicode n name)

/-- The class is selected by the configuration: an enabled reference leads to it; none that is disabled does, unless an enabled one names it; its tags pass
the filter; it supports the Python version. -/
structure Active (files : Path → Option Bytes) (cfg : Config V) (k : Nat) : Prop where
  enabled : Resolved (enabled (o.rules files) cfg o.sysPath o.mods) k
  notDisabled : Resolved (disabled (o.rules files) cfg o.sysPath o.mods) k → ResolvedBy ByName (Fixit.enabled (o.rules files) cfg o.sysPath o.mods) k
  tags : Selected cfg.tags.incl cfg.tags.excl ((o.rules files).tags k)
  version : ∀ v, cfg.pyver = some v → (o.rules files).supports v k = .ok true

/-- The class was found and dropped, for this reason. -/
def DroppedFor (files : Path → Option Bytes) (cfg : Config V) (k : Nat) : Reason → Prop
  | .disabled => Resolved (disabled (o.rules files) cfg o.sysPath o.mods) k ∧ ¬ ResolvedBy ByName (enabled (o.rules files) cfg o.sysPath o.mods) k
  | .tags => Candidate₁ (o.rules files) cfg o.sysPath o.mods k ∧ ¬ Selected cfg.tags.incl cfg.tags.excl ((o.rules files).tags k)
  | .pythonVersion => Candidate₂ (o.rules files) cfg o.sysPath o.mods k ∧ ∃ v, cfg.pyver = some v ∧ (o.rules files).supports v k = .ok false

/-- `v` is what the call of the rule of class `k` says: the message given or else that of the class, the position given or else that of the node. -/
structure Says (m : Node) (k : Nat) (call : ReportCall) (v : Violation Nat Repl) : Prop where
  rule : v.ruleName = ruleName (o.className k)
  node : v.node = call.node
  fix : v.replacement = call.replacement
  message : v.message ≠ [] ∧ (call.message = some v.message ∨ ((call.message = none ∨ call.message = some []) ∧ o.classMessage k = some v.message))
  own : call.position = .none → v.range = o.range m call.node
  range : ∀ r, call.position = .range r → v.range = r
  point : ∀ p, call.position = .pos p → v.range = ⟨p, ⟨p.line + 1, 0⟩⟩

/-- Linting the file goes through: it can be read and configured, the rules can be made, it can be parsed, and the visitors do not raise; the reports that are not
silenced have a message, and their diffs can be made. -/
structure Lints (options : Option Options) (files : Path → Option Bytes) (path : Path) (content : Bytes) (cfg : Config V) (m : Node) : Prop where
  source : files path = some content
  readable : o.base.readRaises path = none
  config : generateConfig o.cfg o.configOrder (o.fs files) (o.load files) path none options = .ok cfg
  collect : ∃ c, (collectRules (o.rules files) o.ruleOrder cfg o.sysPath o.mods).1 = .ok c ∧
    (o.visitors files cfg m (c.rules.map o.inst)).raised = none ∧
    ∀ r call, (r, call) ∈ (o.visitors files cfg m (c.rules.map o.inst)).calls → ¬ Silenced o m call.node r.name →
      (∃ s, s ≠ [] ∧ (call.message = some s ∨ o.classMessage r.id = some s)) ∧
      ∀ v : Violation Nat Repl, v.node = call.node → v.replacement = call.replacement → ∃ lv, display (o.env options) path m v = .ok lv
  parse : o.base.parse content = .ok m

/-- A visitor of a selected rule makes this call on the module, and no comment silences it. -/
def Flagged (files : Path → Option Bytes) (cfg : Config V) (m : Node) (k : Nat) (call : ReportCall) : Prop :=
  Active o files cfg k ∧ (∃ c, (collectRules (o.rules files) o.ruleOrder cfg o.sysPath o.mods).1 = .ok c ∧
    (o.inst k, call) ∈ (o.visitors files cfg m (c.rules.map o.inst)).calls) ∧ ¬ Silenced o m call.node (ruleName (o.className k))

/-- Why linting a file fails before anything is reported: the configuration file given with `--config-file` is missing or is not TOML; no rules can be made; the file
cannot be parsed; a visitor raises `e` after reports that are all in order; or a report that is not silenced has no message. -/
inductive Fails (options : Option Options) (files : Path → Option Bytes) (path : Path) (content : Bytes) : Err → Prop
  | noConfig (oo : Options) (f : Path) (h : options = some oo) (hf : oo.configFile = some f) (hm : files (o.real f) = none) : Fails options files path content o.missing
  | badConfig (oo : Options) (f : Path) (b : Bytes) (e : Err) (h : options = some oo) (hf : oo.configFile = some f) (hm : files (o.real f) = some b) (ht : o.toml b = .error e) :
      Fails options files path content e
  | noRules (cfg : Config V) (e : Err) (hc : generateConfig o.cfg o.configOrder (o.fs files) (o.load files) path none options = .ok cfg)
      (he : (collectRules (o.rules files) o.ruleOrder cfg o.sysPath o.mods).1 = .error e) : Fails options files path content e
  | syntaxError (cfg : Config V) (c : Collected Nat M) (e : Err) (hc : generateConfig o.cfg o.configOrder (o.fs files) (o.load files) path none options = .ok cfg)
      (hr : (collectRules (o.rules files) o.ruleOrder cfg o.sysPath o.mods).1 = .ok c) (hne : c.rules ≠ []) (he : o.base.parse content = .error e) :
      Fails options files path content e
  | raises (cfg : Config V) (c : Collected Nat M) (m : Node) (e : Err) (hc : generateConfig o.cfg o.configOrder (o.fs files) (o.load files) path none options = .ok cfg)
      (hr : (collectRules (o.rules files) o.ruleOrder cfg o.sysPath o.mods).1 = .ok c) (hne : c.rules ≠ []) (hp : o.base.parse content = .ok m)
      (hok : ∀ r call, (r, call) ∈ (o.visitors files cfg m (c.rules.map o.inst)).calls → ¬ Silenced o m call.node r.name →
        ∃ s, s ≠ [] ∧ (call.message = some s ∨ o.classMessage r.id = some s))
      (he : (o.visitors files cfg m (c.rules.map o.inst)).raised = some e) : Fails options files path content e
  | noMessage (cfg : Config V) (c : Collected Nat M) (m : Node) (r : RuleInst) (call : ReportCall)
      (hc : generateConfig o.cfg o.configOrder (o.fs files) (o.load files) path none options = .ok cfg)
      (hr : (collectRules (o.rules files) o.ruleOrder cfg o.sysPath o.mods).1 = .ok c) (hne : c.rules ≠ []) (hp : o.base.parse content = .ok m)
      (hm : (r, call) ∈ (o.visitors files cfg m (c.rules.map o.inst)).calls) (hs : ¬ Silenced o m call.node r.name)
      (hn : ∀ s, s ≠ [] → call.message ≠ some s ∧ o.classMessage r.id ≠ some s) : Fails options files path content .value

/-- `b` is the module written out in the style the configuration names; without one, as it is. Of several styles with that name the last counts. -/
inductive Formatted (cfg : Config V) (m : Node) (path : Path) (b : Bytes) : Prop
  | plain (h : cfg.formatter = none) (hb : o.base.bytes m = .ok b)
  | styled (name : PStr) (before after : List (PStr × (Node → Path → Except Err Bytes))) (style : Node → Path → Except Err Bytes)
      (h : cfg.formatter = some name) (hs : o.base.styles = before ++ (name, style) :: after) (hlast : ∀ e ∈ after, e.1 ≠ name) (hb : style m path = .ok b)

end
end Spec
