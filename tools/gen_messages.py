#!/usr/bin/env python3
"""Reads the MESSAGE of every rule class in /repo/src/fixit/rules and writes lean/Verif/Spec/BundledMessages.lean."""
import ast, glob, os
rows = []
for f in sorted(glob.glob('/repo/src/fixit/rules/*.py') + glob.glob('/repo/src/fixit/rules/extra/*.py')):
    for c in ast.parse(open(f).read()).body:
        if isinstance(c, ast.ClassDef) and any(getattr(b, 'id', '') == 'LintRule' for b in c.bases):
            msg = None
            line = c.lineno
            for s in c.body:
                tgt = s.targets[0] if isinstance(s, ast.Assign) else s.target if isinstance(s, ast.AnnAssign) else None
                if tgt is not None and getattr(tgt, 'id', '') == 'MESSAGE':
                    msg = eval(compile(ast.Expression(s.value), f, 'eval'))
                    line = s.lineno
            rows.append((c.name, msg, os.path.relpath(f, '/repo/src/fixit'), line))
def lit(s):
    return '"' + s.replace('\\', '\\\\').replace('"', '\\"').replace('\n', '\\n') + '"'
out = ['import Verif.Py.Str', '', '/-!', '# The `MESSAGE` of every rule class, read from the source by `tools/gen_messages.py`', '-/', '', 'namespace Spec', 'open Py', '',
       '/-- Class name and `MESSAGE`, for the classes in rules/ and rules/extra/. -/', 'def ruleMessages : List (PStr × Option PStr) := [']
for i, (n, m, f, l) in enumerate(rows):
    v = 'none' if m is None else 'some (py %s)' % lit(m)
    out.append('  -- %s:%d' % (f, l))
    out.append('  (py "%s", %s)%s' % (n, v, ',' if i + 1 < len(rows) else ']'))
out += ['', 'end Spec', '']
open('/verif/lean/Verif/Spec/BundledMessages.lean', 'w').write('\n'.join(out))
print(len(rows), [r[0] for r in rows])
