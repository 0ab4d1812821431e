#!/usr/bin/env python3
"""Write lean/Verif/Model/Registry.lean: what the modules of /repo/asterisklint/{app,func}/v*
register.  The files are parsed as text (ast), nothing is run.  Anything but the few shapes
known is an error."""
import ast, os, sys
repo = '/repo/asterisklint'
root = os.path.dirname(os.path.dirname(os.path.abspath(__file__)))

APPBEH = {  # classes with behaviour of their own, see Model/App.lean
    'Background': '.background', 'Set': '.set', 'Goto': '.goto', 'GotoIf': '.gotoIf',
    'GotoIfTime': '.ifTime', 'ExecIfTime': '.ifTime', 'Gosub': '.gosub', 'GosubIf': '.gosubIf',
    'ExecIf': '.execIf'}
FUNCBEH = {'SET': '.set', 'AUDIOHOOK_INHERIT': '.audiohook', 'INC': '.count', 'DEC': '.count'}

def arg(call):
    f = call.func.id
    if f == 'AppArg':
        return '.any'
    if f == 'AppOrExten':
        return '.appOrExten'
    if f == 'AppOptions':
        return '.options (c! "%s")' % call.args[0].value
    raise ValueError(ast.dump(call))

def appbeh(cls):
    if cls.name in APPBEH:
        return APPBEH[cls.name]
    body = [x for x in cls.body if not isinstance(x, ast.Pass)
            and not (isinstance(x, ast.Expr) and isinstance(x.value, ast.Constant))]
    base = [b.id for b in cls.bases]
    if not body:
        assert base in (['AppBase'], ['BuiltinAppBase']), (cls.name, base)
        return '.plain'
    assert base == ['App'] and len(body) == 1 and body[0].name == '__init__', cls.name
    call, = body[0].body
    call = call.value
    assert not call.args
    kw = {k.arg: k.value for k in call.keywords}
    assert set(kw) <= {'args', 'min_args'}
    mn = '(some %d)' % kw['min_args'].value if 'min_args' in kw else 'none'
    return '.args %s [%s]' % (mn, ', '.join(arg(a) for a in kw['args'].elts))

def funcbeh(cls):
    if cls.name in FUNCBEH:
        return FUNCBEH[cls.name]
    body = [x for x in cls.body if not isinstance(x, ast.Pass)
            and not (isinstance(x, ast.Expr) and isinstance(x.value, ast.Constant))]
    assert not body, cls.name
    assert [b.id for b in cls.bases] in (['FuncBase'], ['BuiltinFuncBase']), cls.name
    return '.plain'

def registered(tree):
    fn = [x for x in tree.body if isinstance(x, ast.FunctionDef) and x.name == 'register']
    if not fn:
        return []
    out = []
    for st in fn[0].body:
        if isinstance(st, ast.For):
            body, = st.body
            c = body.value
            assert c.func.attr == 'register' and c.args[0].func.id == st.target.id and not c.args[0].args
            out += [e.id for e in st.iter.elts]
        else:
            c = st.value
            assert c.func.attr == 'register' and not c.args[0].args and not c.args[0].keywords
            out.append(c.args[0].func.id)
    return out

def module(tree, cls, fname):
    """The property `module`: '<builtin>' with the mixin of builtin.py."""
    classes = {x.name: x for x in tree.body if isinstance(x, ast.ClassDef)}
    todo = [cls]
    while todo:
        c = todo.pop()
        if c.name == '_Builtin':
            return '<builtin>'
        todo += [classes[b.id] for b in c.bases if b.id in classes]
    return fname[:-3]

def table(kind, beh):
    dirs = {v: sorted(f for f in os.listdir('%s/%s/%s' % (repo, kind, v)) if f.endswith('.py'))
            for v in ('v11', 'v13', 'vall')}
    for v in ('v11', 'v13'):
        for f in dirs[v]:
            p = '%s/%s/%s/%s' % (repo, kind, v, f)
            assert f == '__init__.py' or os.readlink(p) == '../vall/' + f, p
            assert f != '__init__.py' or not ast.parse(open(p).read()).body
    rows = []
    for f in dirs['vall']:
        tree = ast.parse(open('%s/%s/vall/%s' % (repo, kind, f)).read())
        classes = {x.name: x for x in tree.body if isinstance(x, ast.ClassDef)}
        regs = ['⟨c! "%s", c! "%s", %s⟩' % (n, module(tree, classes[n], f), beh(classes[n])) for n in registered(tree)]
        rows.append('  ⟨c! "%s", %s, %s, [%s]⟩' % (f, str(f in dirs['v11']).lower(), str(f in dirs['v13']).lower(),
                    ',\n    '.join(regs)))
    assert set(dirs['v11']) | set(dirs['v13']) <= set(dirs['vall'])
    return ',\n'.join(rows)

open(root + '/lean/Verif/Model/Registry.lean', 'w').write('''import Verif.Model.Loader

/-!
# The applications and functions that come with the program

Written by tools/registry.py from `asterisklint/app/v*/*.py` and `asterisklint/func/v*/*.py`.
The files of v11 and v13 are links to the file of the same name in `vall`.
-/

namespace ALint

/-- A file of `vall`: is there a link to it in `v11`, in `v13`; what its `register` registers,
in this order (nothing if there is no such function).  `__init__.py` is a file of its own. -/
structure ModFile (α : Type) where
  file : Str
  v11 : Bool
  v13 : Bool
  regs : List α

/-- `asterisklint/app/vall/*.py`. -/
def appModFiles : List (ModFile AppInfo) := [
%s]

/-- `asterisklint/func/vall/*.py`. -/
def funcModFiles : List (ModFile FuncInfo) := [
%s]

end ALint
''' % (table('app', appbeh), table('func', funcbeh)))
