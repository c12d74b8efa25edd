#!/usr/bin/env python3
"""Rewrite the status section of DESIGN.md from MANIFEST.json and properties.jsonl."""
import json, os
root = os.path.dirname(os.path.dirname(os.path.abspath(__file__)))
titles = {}
for l in open(root + '/properties.jsonl'):
    o = json.loads(l); titles[o['id']] = o['title']
text = open(root + '/DESIGN.md').read()
a, rest = text.split('<!-- status begin -->')
_, b = rest.split('<!-- status end -->')
s = '\n| id | title | status | remarks: what is missing, what was found |\n|----|-------|--------|---------|\n'
for c in sorted(json.load(open(root + '/MANIFEST.json'))['claims'], key=lambda c: int(c['property'][1:])):
    s += '| %s | %s | %s | %s |\n' % (c['property'], titles[c['property']].replace('|', '/'), c['status'], c['note'].replace('|', '/'))
open(root + '/DESIGN.md', 'w').write(a + '<!-- status begin -->' + s + '<!-- status end -->' + b)
