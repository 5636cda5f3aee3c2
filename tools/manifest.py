#!/usr/bin/env python3
"""Writes /verif/MANIFEST.json from the table below."""
import json
C=[]
def c(prop,status,theorems,note): C.append(dict(property=prop,status=status,theorems=["Seldon."+t for t in theorems.split()],note=note))
exec(open('/verif/tools/manifest_table.py').read())
json.dump({"claims":C},open('/verif/MANIFEST.json','w'),indent=1)
