"""Write the table "Violations found" into DESIGN.md from the comments of the theorems."""
import glob
import re

rows = []
for path in sorted(glob.glob('/verif/lean/Verif/Props/*.lean')):
    text = open(path).read()
    for match in re.finditer(r'/--((?:(?!-/).)*?)-/\s*(?:omit [^\n]*\s+)?theorem (C\d\d+_\w*violation)\b', text, re.S):
        comment = ' '.join(match.group(1).split())
        comment = re.sub(r"^\*\*C\d\d+(?:, violation)?\.\*\* ", "", comment)
        rows.append((match.group(2), comment.replace('|', '\\|')))
    names = set(re.findall(r'^theorem (C\d\d+_\w*violation)\b', text, re.M))
    missing = names - {name for name, _ in rows}
    assert not missing, missing
rows.sort()
table = ['## Violations found', '',
         'Inputs for which the code does not do what its documentation or a claim says.', '',
         '| Theorem | What happens |', '|---|---|']
table += ['| `%s` | %s |' % row for row in rows]
design = open('/verif/DESIGN.md').read()
if '## Violations found' in design:
    design = re.sub(r'## Violations found.*?(?=## Functions and their models)', lambda _: '\n'.join(table) + '\n\n', design, flags=re.S)
else:
    design = design.replace('## Functions and their models', '\n'.join(table) + '\n\n## Functions and their models', 1)
open('/verif/DESIGN.md', 'w').write(design)
print(len(rows), 'violations')
