"""Functions of /repo/popkinmocks and the model definitions whose comments cite lines in them."""
import ast, glob, os, re, sys
repo = '/repo/popkinmocks'
cites = {}
for f in glob.glob('/verif/lean/Verif/*.lean'):
    for m in re.finditer(r'((?:\w+/)?\w+\.py):([0-9,\- ]+)', open(f).read()):
        name = m.group(1).split('/')[-1]
        for part in re.split(r'[, ]+', m.group(2).strip(' ,')):
            r = re.match(r'(\d+)(?:-(\d+))?$', part)
            if r:
                a = int(r.group(1)); b = int(r.group(2) or a)
                cites.setdefault(name, set()).update(range(a, b + 1))
for f in sorted(glob.glob(repo + '/**/*.py', recursive=True)):
    name = os.path.basename(f)
    if name in ('__init__.py', '_version.py'): continue
    tree = ast.parse(open(f).read())
    for node in ast.walk(tree):
        if isinstance(node, ast.FunctionDef):
            a, b = node.body[0].lineno, node.end_lineno
            if isinstance(node.body[0], ast.Expr) and isinstance(getattr(node.body[0], 'value', None), ast.Constant) and len(node.body) > 1:
                a = node.body[1].lineno
            c = cites.get(name, set())
            n = sum(1 for k in range(a, b + 1) if k in c)
            print(f'{name}:{node.lineno}-{b} {node.name} {n}/{b-a+1}')
