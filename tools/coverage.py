"""Writes the table of modelled and unmodelled functions of DESIGN.md.

A function of /repo/modred counts as modelled if the comment of a definition in lean/Verif/Model cites
lines of it.  The reasons for those without a model are below.
"""
import ast, re, pathlib

root = pathlib.Path(__file__).resolve().parent.parent
repo = pathlib.Path("/repo/modred")
why = {
    "util.py:UndefinedError": "an exception class; it is the value `Err.undefinedError`",
    "py2to3.py:run_script": "runs the examples of the tutorials",
    "parallel.py:get_hostname": "input of the model (names of hosts)",
    "parallel.py:get_rank": "input of the model",
    "parallel.py:get_num_MPI_workers": "input of the model",
    "parallel.py:get_num_procs": "input of the model",
    "parallel.py:is_distributed": "input of the model",
    "parallel.py:is_rank_zero": "input of the model",
    "reductions.py:Intracomm.__new__": "construction of the communicator",
    "parallel.py:get_node_ID": "returns a stored number; see `nodeID`",
    "parallel.py:get_num_nodes": "returns a stored number; see `numNodes`",
    "parallel.py:barrier": "the barrier of MPI; a step of the model of processes",
    "vectors.py:VecHandle._get": "abstract; raises `NotImplementedError`",
    "vectors.py:VecHandle._put": "abstract; raises `NotImplementedError`",
    "vectors.py:VecHandleArrayText.__init__": "stores its arguments",
    "vectors.py:VecHandlePickle.__init__": "stores its arguments",
    "vectors.py:InnerProductTrapz.__call__": "calls `inner_product`, see `innerProductTrapz`",
    "vectorspace.py:VectorSpaceHandles._check_inner_product": "first line of the models that raise `RuntimeError` (C07)",
    "pod.py:PODHandles.sanity_check": "calls `VectorSpaceHandles.sanity_check`, see `Model/Sanity`",
    "bpod.py:BPODHandles.sanity_check": "calls `VectorSpaceHandles.sanity_check`, see `Model/Sanity`",
    "dmd.py:DMDHandles.sanity_check": "calls `VectorSpaceHandles.sanity_check`, see `Model/Sanity`",
}
files = ["parallel.py", "reductions.py", "vectors.py", "vectorspace.py", "util.py", "pod.py", "bpod.py", "dmd.py",
         "era.py", "okid.py", "ltigalerkinproj.py", "py2to3.py", "examples/hermite.py"]

funcs = []   # file, name, first, last
for f in files:
    tree = ast.parse((repo / f).read_text())
    for n in tree.body:
        if isinstance(n, ast.FunctionDef):
            funcs.append((f, n.name, n.lineno, n.end_lineno))
        elif isinstance(n, ast.ClassDef):
            for m in n.body:
                if isinstance(m, ast.FunctionDef):
                    funcs.append((f, f"{n.name}.{m.name}", m.lineno, m.end_lineno))

cites = []   # file, first, last, definition
for p in sorted((root / "lean/Verif/Model").glob("*.lean")):
    s = p.read_text()
    pat = r"/--(.*?)-/\s*(?:@\[.*?\]\s*)*(?:open scoped \S+ in\s*)?(?:noncomputable )?(?:def|structure|inductive|abbrev|class)\s+(\S+)"
    for m in re.finditer(pat, s, re.S):
        doc, name = m.group(1), m.group(2)
        if "/--" in doc:
            doc = doc[doc.rindex("/--"):]
        for c in re.finditer(r"`modred/((?:examples/)?\w+\.py)`\s+lines?\s+((?:\d+(?:-\d+)?(?:,\s*|\s+and\s+)?)+)", doc):
            for r in re.findall(r"\d+(?:-\d+)?", c.group(2)):
                a, _, b = r.partition("-")
                cites.append((c.group(1), int(a), int(b or a), name))

rows, open_ = [], []
for f, name, a, b in funcs:
    defs = []
    for g, x, y, d in cites:
        if g == f and not (y < a or x > b) and d not in defs:
            defs.append(d)
    if defs:
        rows.append(f"| `{f}` | `{name}` | " + ", ".join(f"`{d}`" for d in defs) + " |")
    else:
        r = why.get(f"{f}:{name}") or why.get(f"{f}:*")
        rows.append(f"| `{f}` | `{name}` | not modelled{': ' + r if r else ''} |")
        if not r:
            open_.append(f"{f}:{name}")
table = "| File | Function | Definitions of the model |\n|---|---|---|\n" + "\n".join(rows) + "\n"
d = root / "DESIGN.md"
s = d.read_text()
b, e = "<!-- coverage begin -->", "<!-- coverage end -->"
if b not in s:
    i = s.index("## Axioms per theorem")
    s = s[:i] + f"## Functions and their models\n\n{b}\n{e}\n\n" + s[i:]
s = s[: s.index(b)] + b + "\n" + table + s[s.index(e):]
d.write_text(s)
print(len(funcs), "functions,", len(open_), "without model and reason:", *open_)
