#!/usr/bin/env python3
"""Print the axioms of every theorem in MANIFEST.json (run from /verif after lake build; writes only to /tmp)."""
import json,subprocess,re
ths=[t for c in json.load(open('MANIFEST.json'))['claims'] for t in c['theorems']]
open('/tmp/Axioms.lean','w').write('import Verif\n'+'\n'.join('#print axioms '+t for t in ths))
o=subprocess.run(['lake','env','lean','/tmp/Axioms.lean'],cwd='lean',capture_output=True,text=True).stdout
print(re.sub(r'\n\s+',' ',o))
